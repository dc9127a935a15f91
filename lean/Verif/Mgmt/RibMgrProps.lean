import Verif.Mgmt.RibMgrEarly
import Verif.Mgmt.RibMgrOps

/-! Properties of the RIB manager: C88 (expiry of routes), C89 (prefix announcements), C90 (commands). -/
namespace Verif.RibMgr

/-! ## Specification -/

/-- There is a route with these fields. -/
def HasRoute (s : St) (n : Name) (face origin cost flags : Nat) (expires : Option Nat) : Prop :=
  ∃ r, (n, r) ∈ s.rib ∧ r.face = face ∧ r.origin = origin ∧ r.cost = cost ∧ r.flags = flags ∧ r.expires = expires

/-- There is no route for this name, face and origin. -/
def NoRoute (s : St) (n : Name) (face origin : Nat) : Prop := ∀ r, (n, r) ∈ s.rib → ¬ (r.face = face ∧ r.origin = origin)

/-- At most the route for this name, face and origin differs. -/
def SameElse (s s' : St) (n : Name) (face origin : Nat) : Prop :=
  ∀ m r, ¬ (m = n ∧ r.face = face ∧ r.origin = origin) → ((m, r) ∈ s'.rib ↔ (m, r) ∈ s.rib)

/-- There is one route for a name, face and origin. -/
theorem route_unique {evs : List Ev} {n : Name} {r q : Rt} (hr : (n, r) ∈ (run {} evs).rib) (hq : (n, q) ∈ (run {} evs).rib)
    (hf : r.face = q.face) (ho : r.origin = q.origin) : r = q := by
  have := rib_unique (run_ok (evs := evs) ok_init).keys hr hq ⟨rfl, hf, ho⟩
  exact congrArg Prod.snd this

/-! ## C88: expiry -/

/-- **C88**: in every history, when the RIB has nothing left to do and the clock has not passed the time of any scheduled event that has
not run, no route of an existing face is past its expiry. -/
theorem C88_expired {evs : List Ev} (hq : (run {} evs).queue = []) (ht : ∀ t ∈ (run {} evs).timers, (run {} evs).now < t.due)
    {n : Name} {r : Rt} {t : Nat} (hr : (n, r) ∈ (run {} evs).rib) (hf : r.face ∈ (run {} evs).faces) (he : r.expires = some t) :
    (run {} evs).now < t := by
  rcases (run_ok (evs := evs) ok_init).rib _ hr hf t he with ⟨tm, h1, _, h2, _⟩ | ⟨v, hv, _⟩
  · rw [← h2]; exact ht tm h1
  · rw [hq] at hv; cases hv

/-- **C88**: routes come and go only as updates are completed, and only the route named by the update. -/
theorem C88_only {s : St} {ev : Ev} : (step s ev).rib = s.rib ∨
    ∃ ok u q, ev = .complete ok ∧ s.queue = u :: q ∧ (step s ev).queue = q ∧ SameElse s (step s ev) u.name u.route.face u.route.origin ∧
      (u.act = .register → (u.name, u.route) ∈ (step s ev).rib) ∧
      (u.act ≠ .register → NoRoute (step s ev) u.name u.route.face u.route.origin) := by
  have hadd : ∀ (s : St) n r cb, (addRoute s n r cb).rib = s.rib := by
    intro s n r cb
    unfold addRoute
    split
    · split
      · dsimp only; split <;> rfl
      · rfl
    · rfl
  unfold step
  split
  · exact .inl rfl
  cases ev with
  | register req i p => left; simp only [live, registerEntry]; split <;> simp [hadd, emit]
  | unregister req i p => exact .inl rfl
  | announce req i a v sys => left; simp only [live, announceEntry]; split <;> (try split) <;> simp [hadd, emit]
  | slAnnounce req a f l v sys => left; simp only [live, slAnnounce]; split <;> simp [hadd, emit]
  | slRenew req n f l => left; simp only [live, slRenew]; split <;> (try split) <;> simp [hadd, emit]
  | slFindAnn req n => left; simp only [live, slFindAnn]; split <;> (try split) <;> simp [emit]
  | timer id => left; simp only [live]; split <;> (try split) <;> simp [onRouteExpiration, enqueue]
  | faceUp f => left; simp only [live]; split <;> rfl
  | faceDown f => exact .inl rfl
  | notified f => exact .inl rfl
  | fetched active => exact .inl rfl
  | tick d => exact .inl rfl
  | complete ok =>
    simp only [live, complete]
    cases hq : s.queue with
    | nil => exact .inl rfl
    | cons u q =>
      dsimp only
      split
      · exact .inl rfl
      split
      · right
        refine ⟨ok, u, q, rfl, rfl, ?_⟩
        have hins : ∀ m r, ¬ (m = u.name ∧ r.face = u.route.face ∧ r.origin = u.route.origin) →
            ((m, r) ∈ (insert { s with queue := q } u.name u.route).rib ↔ (m, r) ∈ s.rib) := by
          intro m r h
          rw [insert_mem]
          constructor
          · rintro (h' | h')
            · cases h'; exact absurd ⟨rfl, rfl, rfl⟩ h
            · exact h'.1
          · exact fun h' => .inr ⟨h', h⟩
        have hera : ∀ m r, ¬ (m = u.name ∧ r.face = u.route.face ∧ r.origin = u.route.origin) →
            ((m, r) ∈ (erase { s with queue := q } u.name u.route).rib ↔ (m, r) ∈ s.rib) := by
          intro m r h
          rw [erase_mem]
          exact ⟨fun h' => h'.1, fun h' => ⟨h', h⟩⟩
        have hno : ∀ r, (u.name, r) ∈ (erase { s with queue := q } u.name u.route).rib → ¬ (r.face = u.route.face ∧ r.origin = u.route.origin) := by
          intro r h h'
          rw [erase_mem] at h
          exact h.2 ⟨rfl, h'⟩
        simp only [SameElse, NoRoute]
        cases u.cb <;> cases hu : u.act <;> simp only [emit]
        · exact ⟨(insert_out _ _ _).2, hins, fun _ => insert_mem.2 (.inl rfl), by simp⟩
        · exact ⟨(erase_out _ _ _).2, hera, by simp, fun _ => hno⟩
        · exact ⟨(erase_out _ _ _).2, hera, by simp, fun _ => hno⟩
        · exact ⟨(insert_out _ _ _).2, hins, fun _ => insert_mem.2 (.inl rfl), by simp⟩
        · exact ⟨(erase_out _ _ _).2, hera, by simp, fun _ => hno⟩
        · exact ⟨(erase_out _ _ _).2, hera, by simp, fun _ => hno⟩
      · left
        cases u.cb <;> rfl

/-- **C88**: if no registration of a route was waiting whenever an expiration event of the route ran, then a removal caused by
expiration finds no route of an existing face whose time is not over. What is missing: `C88_violation`. -/
theorem C88_not_early_partial {evs : List Ev} (hc : Clean {} evs) {u : Upd} {q : List Upd} (hq : (run {} evs).queue = u :: q)
    (hu : u.byTimer = true) {n : Name} {r : Rt} (hr : (n, r) ∈ (run {} evs).rib) (hs : Same n u.name r u.route) (hf : r.face ∈ (run {} evs).faces) :
    ∃ t, r.expires = some t ∧ t ≤ (run {} evs).now :=
  ((run_early ok_init early_init hc).early [] u q hq hu).2 _ hr hs hf

namespace W

def n1 : Name := [⟨8, [1]⟩]
def n2 : Name := [⟨8, [1]⟩, ⟨8, [2]⟩]
def n3 : Name := [⟨8, [1]⟩, ⟨8, [2]⟩, ⟨8, [3]⟩]
def p (period : Option Nat) : Params := ⟨n1, 0, 0, 10, 1, period⟩

/-- A route is registered for 10 seconds, and again after 9 seconds, now for an hour; the event runs while the second registration is waiting. -/
def early : List Ev := [.faceUp 5, .register 1 5 (p (some 10000)), .complete true, .tick 9000000000, .register 2 5 (p (some 3600000)),
  .tick 1000000000, .timer 0, .complete true, .complete true]

/-- A route that expires. -/
def clean : List Ev := [.faceUp 5, .register 1 5 (p (some 10000)), .complete true, .tick 10000000000, .timer 0]

end W

/-- The violation: a route renewed for an hour is removed at the time of its first registration. -/
theorem C88_violation : (run {} W.early).rib = [] ∧ (run {} W.early).queue = [] ∧ (run {} W.early).now = 10000 * ms ∧
    HasRoute (run {} (W.early.take 8)) W.n1 5 0 10 1 (some ((9000 + 3600000) * ms)) ∧
    (run {} W.early).out = [.reply 1 200 (some { W.p (some 10000) with face := 5 }), .reply 2 200 (some { W.p (some 3600000) with face := 5 })] :=
  ⟨by decide +kernel, by decide +kernel, by decide +kernel, ⟨⟨5, 0, 10, 1, some ((9000 + 3600000) * ms), none, 0, some 1⟩, by decide +kernel⟩,
    by decide +kernel⟩

/-- The hypotheses of the theorems are met: the route is there until the event has run and the removal is completed. -/
example : Clean {} W.clean ∧ ∃ u, (run {} W.clean).queue = [u] ∧ u.byTimer = true ∧ HasRoute (run {} W.clean) W.n1 5 0 10 1 (some (10000 * ms)) ∧
    (run {} (W.clean ++ [.complete true])).rib = [] := by
  refine ⟨⟨trivial, (by decide +kernel : targetFace 5 0 ∈ (step {} (.faceUp 5)).used), trivial, trivial, ?_, trivial⟩, ?_⟩
  · have hq : (step (step (step (step {} (.faceUp 5)) (.register 1 5 (W.p (some 10000)))) (.complete true)) (.tick 10000000000)).queue = [] := by decide +kernel
    intro t _ _ u hu
    rw [hq] at hu; cases hu
  · exact ⟨⟨.unregister, W.n1, ⟨5, 0, 10, 1, some (10000 * ms), none, 0, none⟩, none, true⟩, by decide +kernel, rfl,
      ⟨⟨5, 0, 10, 1, some (10000 * ms), none, 0, some 0⟩, by decide +kernel⟩, by decide +kernel⟩

/-- A route with an expiry in the future and nothing left to do, as in `C88_expired`. -/
example : let s := run {} (W.clean.take 3)
    s.queue = [] ∧ (∀ t ∈ s.timers, s.now < t.due) ∧ s.timers.length = 1 ∧ HasRoute s W.n1 5 0 10 1 (some (10000 * ms)) ∧ 5 ∈ s.faces :=
  ⟨by decide +kernel, by decide +kernel, by decide +kernel, ⟨⟨5, 0, 10, 1, some (10000 * ms), none, 0, some 0⟩, by decide +kernel⟩, by decide +kernel⟩

/-! ## C89: prefix announcements -/

/-- **C89**: in every history a route with a prefix announcement goes back to the arrival of that announcement on the face of the route,
and its validation; it has the announced name, the origin, cost and flags for announcements, and it expires no later than the
announcement. -/
theorem C89_bound {evs : List Ev} {n : Name} {r : Rt} {a : Ann} (hr : (n, r) ∈ (run {} evs).rib) (ha : r.ann = some a) :
    n = a.name ∧ r.origin = 129 ∧ r.cost = 2048 ∧ r.flags = 1 ∧
    ∃ t e, Accepted {} evs a r.face t ∧ r.expires = some e ∧ e ≤ t := by
  have h0 : AnnInv (fun _ _ _ => False) {} := ⟨by simp, by simp⟩
  obtain ⟨h1, h2, h3, h4, h5, e, h6, h7⟩ := (run_ann (evs := evs) h0).rib _ hr a ha
  exact ⟨h1.symm, h2, h3, h4, _, e, h5.resolve_left id, h6, h7⟩

/-- **C89**: a validated announcement in a command leads to a route for the announced name and the face the command came from, which lasts
as long as the announcement; or, if the announcement is not valid at this time, to the removal of the route. The response says how long. -/
theorem C89_announce {evs : List Ev} {req i sys : Nat} {a : Ann} {ok : Bool} (hl : (run {} evs).fault = false) (hq : (run {} evs).queue = [])
    (hn : a.name.length ≤ 32) (hf : i ∈ (run {} evs).faces) :
    let s := run {} evs
    let s1 := step s (.announce req i a true sys)
    let s2 := step s1 (.complete ok)
    s1.out = s.out ++ [.reply req 200 (some ⟨a.name, i, 129, 2048, 1, some (lifetime sys a / ms)⟩)] ∧ s2.out = s1.out ∧
    SameElse s s2 a.name i 129 ∧
    (0 < lifetime sys a → HasRoute s2 a.name i 129 2048 1 (some (s.now + lifetime sys a)) ∧
      ∀ r, (a.name, r) ∈ s2.rib → r.face = i → r.origin = 129 → r.ann = some a) ∧
    (lifetime sys a = 0 → NoRoute s2 a.name i 129) := by
  intro s s1 s2
  have hok : Ok s := run_ok ok_init
  have hn' : ¬ a.name.length > Nt.maxDepth := by simp only [Nt.maxDepth]; omega
  have hs1 : s1 = addRoute (emit s (.reply req 200 (some ⟨a.name, i, 129, 2048, 1, some (lifetime sys a / ms)⟩))) a.name (annRoute s.now sys a i) none := by
    simp only [s1, step, live, announceEntry, hl, s, hn', Bool.false_eq_true, if_false, if_true, annRoute, originAnn, annCost, childInherit, computeExpiration_eq, Nat.add_sub_cancel_left]
  have hexp : (annRoute s.now sys a i).expires = some (s.now + lifetime sys a) := by simp [annRoute, computeExpiration_eq]
  by_cases hz : lifetime sys a = 0
  · obtain ⟨h1, h2, h3, h4, h5⟩ := expired_effect (s := emit s (.reply req 200 (some ⟨a.name, i, 129, 2048, 1, some (lifetime sys a / ms)⟩)))
      (n := a.name) (r := annRoute s.now sys a i) (cb := none) (ok := ok) hq hexp (by simp only [emit]; omega) (.inr hf)
    have hs2 : s2 = complete s1 ok := by
      have : s1.fault = false := by rw [hs1]; exact h5.trans hl
      simp [s2, step, this, live]
    rw [hs2, hs1]
    refine ⟨by rw [h4]; simp [emit], by rw [h2, h4], fun m r hx => ?_, fun h => by omega, fun _ r hr hx => ?_⟩
    · rw [h1]; exact ⟨fun h => h.1, fun h => ⟨h, hx⟩⟩
    · rw [h1] at hr; exact hr.2 ⟨rfl, hx⟩
  · obtain ⟨e, h1, h2, h3, h4, h5⟩ := register_effect (s := emit s (.reply req 200 (some ⟨a.name, i, 129, 2048, 1, some (lifetime sys a / ms)⟩)))
      (n := a.name) (r := annRoute s.now sys a i) (cb := none) (ok := ok) hq (by omega)
      (fun t ht => by rw [hexp] at ht; cases ht; simp only [emit]; omega) hf (hok.facesUsed _ hf)
    have hs2 : s2 = complete s1 ok := by
      have : s1.fault = false := by rw [hs1]; exact h5.trans hl
      simp [s2, step, this, live]
    rw [hs2, hs1]
    refine ⟨by rw [h4]; simp [emit], by rw [h2, h4]; simp, fun m r hx => ?_, fun _ => ⟨?_, ?_⟩, fun h => absurd h hz⟩
    · rw [h1]
      constructor
      · rintro (h | h)
        · cases h; exact absurd ⟨rfl, rfl, rfl⟩ hx
        · exact h.1
      · exact fun h => .inr ⟨h, hx⟩
    · exact ⟨_, (h1 _).2 (.inl rfl), rfl, rfl, rfl, rfl, hexp⟩
    · intro r hr hf ho
      rcases (h1 _).1 hr with h | h
      · cases h; rfl
      · exact absurd ⟨rfl, hf, ho⟩ h.2

/-- **C89**: the same for the self-learning strategy, with the limit it sets; it is told the result. -/
theorem C89_learn {evs : List Ev} {req f life sys : Nat} {a : Ann} {ok : Bool} (hl : (run {} evs).fault = false) (hq : (run {} evs).queue = [])
    (hn : a.name.length ≤ 32) (hf : f ∈ (run {} evs).faces) :
    let s := run {} evs
    let s1 := step s (.slAnnounce req a f life true sys)
    let s2 := step s1 (.complete ok)
    SameElse s s2 a.name f 129 ∧
    (0 < min (lifetime sys a) life → s2.out = s.out ++ [.sl req .ok] ∧
      HasRoute s2 a.name f 129 2048 1 (some (s.now + min (lifetime sys a) life))) ∧
    (min (lifetime sys a) life = 0 → s2.out = s.out ++ [.sl req .expired] ∧ NoRoute s2 a.name f 129) := by
  intro s s1 s2
  have hok : Ok s := run_ok ok_init
  have hs1 : s1 = addRoute s a.name { annRoute s.now sys a f with expires := some (s.now + min (lifetime sys a) life) } (some req) := by
    simp only [s1, step, live, slAnnounce, hl, s, Bool.false_eq_true, if_false, if_true, annRoute, computeExpiration_eq, Nat.add_min_add_left]
  by_cases hz : min (lifetime sys a) life = 0
  · obtain ⟨h1, h2, h3, h4, h5⟩ := expired_effect (s := s)
      (n := a.name) (r := { annRoute s.now sys a f with expires := some (s.now + min (lifetime sys a) life) }) (cb := some req) (ok := ok) hq rfl (by omega) (.inr hf)
    have hs2 : s2 = complete s1 ok := by
      have : s1.fault = false := by rw [hs1]; exact h5.trans hl
      simp [s2, step, this, live]
    rw [hs2, hs1]
    refine ⟨fun m r hx => ?_, fun h => by omega, fun _ => ⟨h2, fun r hr hx => ?_⟩⟩
    · rw [h1]; exact ⟨fun h => h.1, fun h => ⟨h, hx⟩⟩
    · rw [h1] at hr; exact hr.2 ⟨rfl, hx⟩
  · obtain ⟨e, h1, h2, h3, h4, h5⟩ := register_effect (s := s)
      (n := a.name) (r := { annRoute s.now sys a f with expires := some (s.now + min (lifetime sys a) life) }) (cb := some req) (ok := ok) hq
      (by simp only [Nt.maxDepth]; omega) (fun t ht => by cases ht; omega) hf (hok.facesUsed _ hf)
    have hs2 : s2 = complete s1 ok := by
      have : s1.fault = false := by rw [hs1]; exact h5.trans hl
      simp [s2, step, this, live]
    rw [hs2, hs1]
    refine ⟨fun m r hx => ?_, fun _ => ⟨h2, ?_⟩, fun h => absurd h hz⟩
    · rw [h1]
      constructor
      · rintro (h | h)
        · cases h; exact absurd ⟨rfl, rfl, rfl⟩ hx
        · exact h.1
      · exact fun h => .inr ⟨h, hx⟩
    · exact ⟨_, (h1 _).2 (.inl rfl), rfl, rfl, rfl, rfl, rfl⟩

/-- **C89**: a route of the exact name with an announcement is renewed to the limit set by the strategy, but not beyond the time the announcement
is good for. What is missing: a route of a shorter name, which is not always found (`C89_renew_hidden`). -/
theorem C89_renew_partial {evs : List Ev} {req f life : Nat} {n : Name} {r : Rt} {a : Ann} {ok : Bool} (hl : (run {} evs).fault = false) (hq : (run {} evs).queue = [])
    (hn : n.length ≤ 32) (hf : f ∈ (run {} evs).faces) (hr : (n, r) ∈ (run {} evs).rib) (hrf : r.face = f) (hra : r.ann = some a) :
    let s := run {} evs
    let s2 := step (step s (.slRenew req n f life)) (.complete ok)
    ∃ t, Accepted {} evs a f t ∧ SameElse s s2 n f 129 ∧
    (s.now < min t (s.now + life) → s2.out = s.out ++ [.sl req .ok] ∧ HasRoute s2 n f 129 2048 1 (some (min t (s.now + life)))) ∧
    (min t (s.now + life) ≤ s.now → s2.out = s.out ++ [.sl req .expired] ∧ NoRoute s2 n f 129) := by
  intro s s2
  have hok : Ok s := run_ok ok_init
  have h0 : AnnInv (fun _ _ _ => False) {} := ⟨by simp, by simp⟩
  obtain ⟨b1, b2, b3, b4, b5, -⟩ := (run_ann (evs := evs) h0).rib _ hr a hra
  replace b1 := b1.symm
  have hacc := b5.resolve_left id
  rw [hrf] at hacc
  refine ⟨r.annExpires, hacc, ?_⟩
  generalize ht : r.annExpires = t
  have hfind : findLongestPrefix s n ⟨f, originAnn, 0, 0, none, none, 0, none⟩ = some r := by
    unfold findLongestPrefix
    cases hx : find s n ⟨f, originAnn, 0, 0, none, none, 0, none⟩ with
    | none => exact absurd ⟨rfl, hrf, b2⟩ (find_none hx hr)
    | some x =>
      obtain ⟨c1, c2, c3⟩ := find_some hx
      have := rib_unique hok.keys c1 hr ⟨rfl, c2.trans hrf.symm, c3.trans b2.symm⟩
      simp only [Prod.mk.injEq, true_and] at this
      rw [this]
  have hs1 : step s (.slRenew req n f life) = addRoute s n { r with expires := some (min t (s.now + life)) } (some req) := by
    have h0 : s.fault = false := hl
    simp only [step, live, slRenew, h0, Bool.false_eq_true, if_false, hfind, hra, ← b1, ht]
  have hrf' : r.face ∈ s.faces := hrf ▸ hf
  by_cases hz : min t (s.now + life) ≤ s.now
  · obtain ⟨h1, h2, h3, h4, h5⟩ := expired_effect (s := s)
      (n := n) (r := { r with expires := some (min t (s.now + life)) }) (cb := some req) (ok := ok) hq rfl hz (.inr hrf')
    have hs2 : s2 = complete (addRoute s n { r with expires := some (min t (s.now + life)) } (some req)) ok := by
      have h0 := h5.trans hl
      simp only [s2, hs1]
      rw [step, h0]; rfl
    rw [hs2]
    refine ⟨fun m q hx => ?_, fun h => by omega, fun _ => ⟨h2, fun q hr' hx => ?_⟩⟩
    · rw [h1]; exact ⟨fun h => h.1, fun h => ⟨h, fun h' => hx ⟨h'.1, h'.2.1.trans hrf, h'.2.2.trans b2⟩⟩⟩
    · rw [h1] at hr'; exact hr'.2 ⟨rfl, hx.1.trans hrf.symm, hx.2.trans b2.symm⟩
  · obtain ⟨e, h1, h2, h3, h4, h5⟩ := register_effect (s := s)
      (n := n) (r := { r with expires := some (min t (s.now + life)) }) (cb := some req) (ok := ok) hq
      (by simp only [Nt.maxDepth]; omega) (fun t ht => by cases ht; omega) hrf' (hok.facesUsed _ hrf')
    have hs2 : s2 = complete (addRoute s n { r with expires := some (min t (s.now + life)) } (some req)) ok := by
      have h0 := h5.trans hl
      simp only [s2, hs1]
      rw [step, h0]; rfl
    rw [hs2]
    refine ⟨fun m q hx => ?_, fun _ => ⟨h2, ?_⟩, fun h => absurd h hz⟩
    · rw [h1]
      constructor
      · rintro (h | h)
        · cases h; exact absurd ⟨rfl, hrf, b2⟩ hx
        · exact h.1
      · exact fun h => .inr ⟨h, fun h' => hx ⟨h'.1, h'.2.1.trans hrf, h'.2.2.trans b2⟩⟩
    · exact ⟨_, (h1 _).2 (.inl rfl), hrf, b2, b3, b4, rfl⟩

/-- **C89**: as long as the daemon runs, a request of the strategy to add or renew a route is answered once, at the latest when the RIB
has nothing left to do. -/
theorem C89_once {evs : List Ev} (req : Nat) (hl : (run {} evs).fault = false) :
    answers (run {} evs).out req ≤ asks evs req ∧ ((run {} evs).queue = [] → answers (run {} evs).out req = asks evs req) := by
  have h := run_total (s := {}) (evs := evs) req hl
  have h0 : total {} req = 0 := rfl
  rw [h0] at h
  simp only [total] at h
  refine ⟨by omega, fun hq => ?_⟩
  have : waiting (run {} evs).queue req = 0 := by rw [hq]; rfl
  omega

/-- **C89**: self-learning is told that a route was added exactly when it is in the RIB; it is told of an error exactly when the RIB stays as it is,
and then the face does not exist. -/
theorem C89_told {s : St} {u : Upd} {q : List Upd} {req : Nat} {ok : Bool} (hl : s.fault = false) (hq : s.queue = u :: q) (ha : u.act = .register)
    (hcb : u.cb = some req) (hn : u.name.length ≤ 32) :
    let s2 := step s (.complete ok)
    (s2.out = s.out ++ [.sl req .ok] ∧ (u.name, u.route) ∈ s2.rib) ∨
    (s2.out = s.out ++ [.sl req .error] ∧ s2.rib = s.rib ∧ (u.route.face ∉ s.faces ∨ u.route.face ∉ s.used)) := by
  intro s2
  have hn' : ¬ (True ∧ u.name.length > Nt.maxDepth) := by show ¬ (True ∧ u.name.length > 32); omega
  have hs : s2 = complete s ok := by simp [s2, step, hl, live]
  rw [hs]
  simp only [complete, hq, ha, hcb, if_neg hn']
  split
  · left
    refine ⟨?_, insert_mem.2 (.inl rfl)⟩
    simp only [emit]
    rw [(insert_out _ _ _).1]
  · rename_i h
    right
    refine ⟨rfl, rfl, ?_⟩
    apply Decidable.byContradiction
    intro hx
    refine h ⟨.inr ?_, fun _ => ?_⟩ <;> apply Decidable.byContradiction <;> intro hy
    · exact hx (.inl hy)
    · exact hx (.inr hy)

/-- **C89**: an announcement that could not be validated changes nothing, and the one who brought it is told. -/
theorem C89_invalid {s : St} {req f life sys : Nat} {a : Ann} (hl : s.fault = false) :
    step s (.slAnnounce req a f life false sys) = { s with out := s.out ++ [.sl req .validationFailure] } ∧
    ∃ code, (code = 403 ∨ code = 414) ∧ step s (.announce req f a false sys) = { s with out := s.out ++ [.reply req code none] } := by
  constructor
  · simp [step, hl, live, slAnnounce, emit]
  · simp only [step, hl, live, announceEntry, emit]
    by_cases h : a.name.length > Nt.maxDepth
    · exact ⟨414, .inr rfl, by simp [h]⟩
    · exact ⟨403, .inl rfl, by simp [h]⟩

/-- `p` is the longest prefix of `n` that has a route. -/
def Nearest (s : St) (n p : Name) : Prop :=
  p <+: n ∧ (∃ r, (p, r) ∈ s.rib) ∧ ∀ p', p' <+: n → (∃ r, (p', r) ∈ s.rib) → p'.length ≤ p.length

/-- What the strategy gets: of the announcements in the entry, that of the route that expires last; if there is none, a new one for the
remaining lifetime of the entry, but at least 15 seconds and at most an hour. -/
def GoodAnn (s : St) (p : Name) (a : Ann) : Prop :=
  (∃ r t, (p, r) ∈ s.rib ∧ r.ann = some a ∧ r.expires = some t ∧ ∀ q u, (p, q) ∈ s.rib → q.ann.isSome = true → q.expires = some u → u ≤ t) ∨
  ((∀ q, (p, q) ∈ s.rib → q.ann = none) ∧ a.name = p ∧ a.validity = none ∧
    (((∃ q, (p, q) ∈ s.rib ∧ q.expires = none) ∧ a.expiration = 3600000 * ms) ∨
     (∃ q t, (p, q) ∈ s.rib ∧ q.expires = some t ∧ (∀ q', (p, q') ∈ s.rib → ∃ u, q'.expires = some u ∧ u ≤ t) ∧
      a.expiration = min (max ((t - s.now) / ms * ms) (15000 * ms)) (3600000 * ms))))

theorem good_of_prefixAnnouncement {evs : List Ev} {p : Name} (hne : ∃ r, (p, r) ∈ (run {} evs).rib) :
    GoodAnn (run {} evs) p (prefixAnnouncement (run {} evs).now p (routesOf (run {} evs) p)) := by
  have hb := bestAnn_all (routesOf (run {} evs) p)
  have hexp : ∀ q, (p, q) ∈ (run {} evs).rib → q.ann.isSome = true → q.expires ≠ none := by
    intro q hq ha hn
    obtain ⟨a, ha⟩ := Option.isSome_iff_exists.1 ha
    obtain ⟨-, -, -, -, t, e, -, he, -⟩ := C89_bound hq ha
    rw [hn] at he; cases he
  unfold prefixAnnouncement
  generalize hB : bestAnn (routesOf (run {} evs) p) none none = B at hb
  obtain ⟨b, e⟩ := B
  cases b with
  | some r =>
    obtain ⟨h1, h2, t, h3, h4⟩ := hb.some r rfl
    obtain ⟨a, ha⟩ := Option.isSome_iff_exists.1 h2
    simp only [ha, Option.getD_some]
    exact .inl ⟨r, t, mem_routesOf.1 h1, ha, h3, fun q u hq hqa hqe => h4 q (mem_routesOf.2 hq) hqa u hqe⟩
  | none =>
    right
    have hnone : ∀ q, (p, q) ∈ (run {} evs).rib → q.ann = none := by
      intro q hq
      cases ha : q.ann with
      | none => rfl
      | some a =>
        have := hb.none rfl q (mem_routesOf.2 hq) (by simp [ha])
        exact absurd this (hexp q hq (by simp [ha]))
    refine ⟨hnone, rfl, rfl, ?_⟩
    cases e with
    | none =>
      obtain ⟨r, hr⟩ := hne
      have := hb.empty rfl
      rw [← mem_routesOf, this] at hr; cases hr
    | some e =>
      cases e with
      | none =>
        left
        obtain ⟨y, hy, hn⟩ := hb.never.1 rfl
        exact ⟨⟨y, mem_routesOf.1 hy, hn⟩, by simp [ms]⟩
      | some t =>
        right
        obtain ⟨h1, y, h2, h3⟩ := hb.last t rfl
        exact ⟨y, t, mem_routesOf.1 h2, h3, fun q hq => h1 q (mem_routesOf.2 hq), rfl⟩

theorem nearest_exact {s : St} {n : Name} (h : routesOf s n ≠ []) : Nearest s n n :=
  ⟨List.prefix_refl n, routesOf_ne.1 h, fun _ hp _ => hp.length_le⟩

theorem nearest_parent {s : St} {n : Name} (h : ¬ routesOf s n ≠ []) :
    match findParent s n with
    | none => ∀ p, p <+: n → ¬ ∃ r, (p, r) ∈ s.rib
    | some p => Nearest s n p := by
  have hspec := findUpTo_spec (s := s) (n := n) (k := n.length) (Nat.le_refl _)
  have hlt : ∀ p, p <+: n → (∃ r, (p, r) ∈ s.rib) → p.length < n.length ∧ p = n.take p.length := by
    intro p hp hr
    have hpt := List.prefix_iff_eq_take.1 hp
    refine ⟨?_, hpt⟩
    have := hp.length_le
    by_cases he : p.length = n.length
    · rw [he, List.take_length] at hpt
      subst hpt
      exact absurd (routesOf_ne.2 hr) h
    · omega
  unfold findParent
  cases hf : findUpTo s n n.length with
  | none =>
    rw [hf] at hspec
    intro p hp hr
    obtain ⟨h1, h2⟩ := hlt p hp hr
    rw [h2] at hr
    exact hspec _ h1 hr
  | some p =>
    rw [hf] at hspec
    obtain ⟨h1, j, h2, h3, h4⟩ := hspec
    refine ⟨h3 ▸ List.take_prefix .., h1, fun p' hp' hr' => ?_⟩
    obtain ⟨c1, c2⟩ := hlt p' hp' hr'
    rw [c2] at hr'
    have hj : p.length = j := by rw [h3, List.length_take]; omega
    rw [hj]
    by_cases hle : p'.length ≤ j
    · exact hle
    · exact absurd hr' (h4 _ (by omega) c1)

/-- **C89**: the strategy asks for an announcement of a name, and gets one for the longest prefix that has a route. -/
theorem C89_find {evs : List Ev} {req : Nat} {n : Name} (hl : (run {} evs).fault = false) :
    ∃ o, step (run {} evs) (.slFindAnn req n) = { run {} evs with out := (run {} evs).out ++ [.ann req o] } ∧
      match o with
      | none => ∀ p, p <+: n → ¬ ∃ r, (p, r) ∈ (run {} evs).rib
      | some a => ∃ p, Nearest (run {} evs) n p ∧ GoodAnn (run {} evs) p a := by
  have hst : step (run {} evs) (.slFindAnn req n) = slFindAnn (run {} evs) req n := by simp [step, hl, live]
  rw [hst]
  unfold slFindAnn
  by_cases h : routesOf (run {} evs) n ≠ []
  · rw [if_pos h]
    exact ⟨some _, rfl, n, nearest_exact h, good_of_prefixAnnouncement (routesOf_ne.1 h)⟩
  · rw [if_neg h]
    have hp := nearest_parent h
    cases hf : findParent (run {} evs) n with
    | none => rw [hf] at hp; exact ⟨none, rfl, hp⟩
    | some p => rw [hf] at hp; exact ⟨some _, rfl, p, hp, good_of_prefixAnnouncement hp.2.1⟩

namespace W

def a1 : Ann := ⟨n1, 60000 * ms, some (5, 40000000005)⟩

/-- An announcement for the name of one component, an application's route for two components; Data under both is received. -/
def renew : List Ev := [.faceUp 5, .faceUp 6, .slAnnounce 1 a1 5 (30000 * ms) true 10, .complete true,
  .register 2 6 ⟨n2, 6, 0, 0, 0, none⟩, .complete true, .slRenew 3 n3 5 (10000 * ms), .slRenew 4 n1 5 (35000 * ms), .complete true]

end W

/-- **C89**, not as documented ("for finding RIB entry by longest-prefix-match", rib-manager.hpp:127, "if the specified route exists"): the learned route through face 5 for /1 is
not found for Data /1/2/3, since there is a route through face 6 for /1/2. -/
theorem C89_renew_hidden : (run {} W.renew).out = [.sl 1 .ok, .reply 2 200 (some ⟨W.n2, 6, 0, 0, 0, none⟩), .sl 3 .notFound, .sl 4 .ok] ∧
    HasRoute (run {} (W.renew.take 6)) W.n1 5 129 2048 1 (some (30000 * ms)) ∧ W.n1 <+: W.n3 ∧
    HasRoute (run {} W.renew) W.n1 5 129 2048 1 (some (35000 * ms)) :=
  ⟨by decide +kernel, ⟨⟨5, 129, 2048, 1, some (30000 * ms), some W.a1, 39999999995, some 0⟩, by decide +kernel⟩, by decide +kernel,
    ⟨⟨5, 129, 2048, 1, some (35000 * ms), some W.a1, 39999999995, some 1⟩, by decide +kernel⟩⟩

/-- The hypotheses are met: the face of a learned route is gone when the update is completed. -/
example : let s := run {} [.faceUp 5, .slAnnounce 1 W.a1 5 (30000 * ms) true 10, .faceDown 5]
    (∃ u, s.queue = [u] ∧ u.act = .register ∧ u.cb = some 1 ∧ u.name.length ≤ 32) ∧ s.fault = false ∧ (step s (.complete false)).out = [.sl 1 .error] ∧
    (step s (.complete true)).out = [.sl 1 .ok] :=
  ⟨⟨_, rfl, rfl, rfl, show W.a1.name.length ≤ 32 by decide⟩, rfl, by decide +kernel, by decide +kernel⟩

/-- The hypotheses of `C89_announce`, `C89_learn`, `C89_renew_partial` and `C89_find` are met, and what is found. -/
example : let s := run {} (W.renew.take 6)
    s.fault = false ∧ s.queue = [] ∧ 5 ∈ s.faces ∧ lifetime 10 W.a1 = 39999999995 ∧ lifetime 4 W.a1 = 0 ∧
    (W.n1, (⟨5, 129, 2048, 1, some (30000 * ms), some W.a1, 39999999995, some 0⟩ : Rt)) ∈ s.rib ∧
    (step s (.slFindAnn 7 W.n3)).out = s.out ++ [.ann 7 (some ⟨W.n2, 3600000 * ms, none⟩)] ∧
    (step s (.slFindAnn 7 W.n1)).out = s.out ++ [.ann 7 (some W.a1)] ∧
    (step s (.slFindAnn 7 [])).out = s.out ++ [.ann 7 none] ∧
    answers s.out 1 = 1 ∧ asks (W.renew.take 6) 1 = 1 := by decide +kernel

/-! ## C90: commands -/

/-- **C90**: a registration is answered with the face it is for, the requester's if none was given, and leads to the route asked for (or, if
it is for no time at all, to the removal of the route). -/
theorem C90_register {evs : List Ev} {req i : Nat} {p : Params} {ok : Bool} (hl : (run {} evs).fault = false) (hq : (run {} evs).queue = [])
    (hn : p.name.length ≤ 32) (hf : (if p.face = 0 then i else p.face) ∈ (run {} evs).faces) :
    let s := run {} evs
    let f := if p.face = 0 then i else p.face
    let s1 := step s (.register req i p)
    let s2 := step s1 (.complete ok)
    s1.out = s.out ++ [.reply req 200 (some { p with face := f })] ∧ s2.out = s1.out ∧ SameElse s s2 p.name f p.origin ∧
    (p.period = none ∨ p.period = some forever → HasRoute s2 p.name f p.origin p.cost p.flags none) ∧
    (∀ d, p.period = some d → d ≠ forever → 0 < d → HasRoute s2 p.name f p.origin p.cost p.flags (some (s.now + d * 1000000))) ∧
    (p.period = some 0 → NoRoute s2 p.name f p.origin) := by
  intro s f s1 s2
  have hok : Ok s := run_ok ok_init
  have hn' : ¬ p.name.length > Nt.maxDepth := by simp only [Nt.maxDepth]; omega
  have hs1 : s1 = addRoute (emit s (.reply req 200 (some { p with face := f }))) p.name
      ⟨f, p.origin, p.cost, p.flags, expiry s.now p, none, 0, none⟩ none := by
    simp only [s1, step, live, registerEntry, hl, s, hn', Bool.false_eq_true, if_false, targetFace, f, expiry]
  by_cases hz : p.period = some 0
  · have hexp : expiry s.now p = some s.now := by simp [expiry, hz, forever]
    obtain ⟨h1, h2, h3, h4, h5⟩ := expired_effect (s := emit s (.reply req 200 (some { p with face := f })))
      (n := p.name) (r := ⟨f, p.origin, p.cost, p.flags, expiry s.now p, none, 0, none⟩) (cb := none) (ok := ok) hq hexp (Nat.le_refl _) (.inr hf)
    have hs2 : s2 = complete s1 ok := by
      have : s1.fault = false := by rw [hs1]; exact h5.trans hl
      simp [s2, step, this, live]
    rw [hs2, hs1]
    refine ⟨by rw [h4]; simp [emit], by rw [h2, h4], fun m r hx => ?_, fun h => ?_, fun d hd _ h0 => ?_, fun _ r hr hx => ?_⟩
    · rw [h1]; exact ⟨fun h => h.1, fun h => ⟨h, hx⟩⟩
    · rw [hz] at h; simp [forever] at h
    · rw [hz] at hd; cases hd; omega
    · rw [h1] at hr; exact hr.2 ⟨rfl, hx⟩
  · have hfut : ∀ t, expiry s.now p = some t → s.now < t := by
      intro t ht
      simp only [expiry, Option.bind_eq_some_iff] at ht
      obtain ⟨d, hd, ht⟩ := ht
      by_cases hdf : d = forever
      · simp [hdf] at ht
      · simp only [hdf, if_false, Option.some.injEq] at ht
        have : d ≠ 0 := fun h => hz (h ▸ hd)
        have : 0 < d * ms := Nat.mul_pos (by omega) (by decide)
        omega
    obtain ⟨e, h1, h2, h3, h4, h5⟩ := register_effect (s := emit s (.reply req 200 (some { p with face := f })))
      (n := p.name) (r := ⟨f, p.origin, p.cost, p.flags, expiry s.now p, none, 0, none⟩) (cb := none) (ok := ok) hq (by omega) hfut hf (hok.facesUsed _ hf)
    have hs2 : s2 = complete s1 ok := by
      have : s1.fault = false := by rw [hs1]; exact h5.trans hl
      simp [s2, step, this, live]
    rw [hs2, hs1]
    refine ⟨by rw [h4]; simp [emit], by rw [h2, h4]; simp, fun m r hx => ?_, fun h => ?_, fun d hd hdf h0 => ?_, fun h => absurd h hz⟩
    · rw [h1]
      constructor
      · rintro (h | h)
        · cases h; exact absurd ⟨rfl, rfl, rfl⟩ hx
        · exact h.1
      · exact fun h => .inr ⟨h, hx⟩
    · refine ⟨_, (h1 _).2 (.inl rfl), rfl, rfl, rfl, rfl, ?_⟩
      rcases h with h | h <;> simp [expiry, h]
    · refine ⟨_, (h1 _).2 (.inl rfl), rfl, rfl, rfl, rfl, ?_⟩
      simp [expiry, hd, hdf, ms]

/-- **C90**: a command to remove a route always succeeds, and afterwards there is no such route. -/
theorem C90_unregister {s : St} {req i : Nat} {p : Params} (hl : s.fault = false) (hq : s.queue = []) :
    let f := if p.face = 0 then i else p.face
    let s1 := step s (.unregister req i p)
    let s2 := step s1 (.complete true)
    s1.out = s.out ++ [.reply req 200 (some { p with face := f })] ∧ s2.out = s1.out ∧ SameElse s s2 p.name f p.origin ∧ NoRoute s2 p.name f p.origin := by
  intro f s1 s2
  have hs1 : s1 = unregisterEntry s req i p := by simp [s1, step, hl, live]
  obtain ⟨h1, h2⟩ := unregister_effect (s := s1) (ok := true) (u := { act := .unregister, name := p.name, route := ⟨f, p.origin, 0, 0, none, none, 0, none⟩ })
    (by rw [hs1]; simp [unregisterEntry, enqueue, emit, hq, targetFace, f]) rfl rfl (.inl rfl)
  have hf : s1.fault = false := by rw [hs1]; exact hl
  have hs2 : s2 = complete s1 true := by simp [s2, step, hf, live]
  have hrib : s1.rib = s.rib := by rw [hs1]; rfl
  rw [hs2]
  refine ⟨by rw [hs1]; rfl, h2, fun m r hx => ?_, fun r hr hx => ?_⟩
  · rw [h1, hrib]; exact ⟨fun h => h.1, fun h => ⟨h, hx⟩⟩
  · rw [h1] at hr; exact hr.2 ⟨rfl, hx⟩

/-- **C90**: names of more than 32 components are refused in commands, without effect. -/
theorem C90_long {s : St} {req i sys : Nat} {p : Params} {a : Ann} {v : Bool} (hl : s.fault = false) (hp : 32 < p.name.length) (ha : 32 < a.name.length) :
    step s (.register req i p) = { s with out := s.out ++ [.reply req 414 none] } ∧
    step s (.announce req i a v sys) = { s with out := s.out ++ [.reply req 414 none] } := by
  have hp' : p.name.length > Nt.maxDepth := hp
  have ha' : a.name.length > Nt.maxDepth := ha
  simp [step, hl, live, registerEntry, announceEntry, emit, hp', ha']

/-- **C90**: every command is answered at once, and once. -/
theorem C90_answered {s : St} {ev : Ev} (hl : s.fault = false) :
    (step s ev).out = s.out ∨
    (∃ req code body, (step s ev).out = s.out ++ [.reply req code body] ∧
      ((∃ i p, ev = .register req i p) ∨ (∃ i p, ev = .unregister req i p) ∨ (∃ i a v sys, ev = .announce req i a v sys)) ∧
      (code = 200 ∨ (code = 403 ∨ code = 414) ∧ (step s ev).queue = s.queue)) ∨
    (∃ req, (∃ r, (step s ev).out = s.out ++ [.sl req r]) ∨ ∃ o, (step s ev).out = s.out ++ [.ann req o]) ∧
      ¬ ((∃ req i p, ev = .register req i p) ∨ (∃ req i p, ev = .unregister req i p) ∨ (∃ req i a v sys, ev = .announce req i a v sys)) := by
  have hadd : ∀ (s : St) n r, (addRoute s n r none).out = s.out := by
    intro s n r
    unfold addRoute
    split
    · split <;> rfl
    · rfl
  have hadd' : ∀ (s : St) n r q, (addRoute s n r (some q)).out = s.out ∨ (addRoute s n r (some q)).out = s.out ++ [.sl q .expired] := by
    intro s n r q
    unfold addRoute
    split
    · split
      · exact .inr rfl
      · exact .inl rfl
    · exact .inl rfl
  simp only [step, hl, Bool.false_eq_true, if_false]
  cases ev with
  | register req i p =>
    right; left
    simp only [live, registerEntry]
    split
    · exact ⟨req, 414, none, rfl, .inl ⟨i, p, rfl⟩, .inr ⟨.inr rfl, rfl⟩⟩
    · exact ⟨req, 200, _, hadd .., .inl ⟨i, p, rfl⟩, .inl rfl⟩
  | unregister req i p =>
    right; left
    exact ⟨req, 200, _, rfl, .inr (.inl ⟨i, p, rfl⟩), .inl rfl⟩
  | announce req i a v sys =>
    right; left
    simp only [live, announceEntry]
    split
    · exact ⟨req, 414, none, rfl, .inr (.inr ⟨i, a, v, sys, rfl⟩), .inr ⟨.inr rfl, rfl⟩⟩
    · split
      · exact ⟨req, 200, _, hadd .., .inr (.inr ⟨i, a, v, sys, rfl⟩), .inl rfl⟩
      · exact ⟨req, 403, none, rfl, .inr (.inr ⟨i, a, v, sys, rfl⟩), .inr ⟨.inl rfl, rfl⟩⟩
  | slAnnounce req a f l v sys =>
    simp only [live, slAnnounce]
    split
    · rcases hadd' s a.name _ req with h | h
      · exact .inl h
      · exact .inr (.inr ⟨⟨req, .inl ⟨_, h⟩⟩, by simp⟩)
    · exact .inr (.inr ⟨⟨req, .inl ⟨_, rfl⟩⟩, by simp⟩)
  | slRenew req n f l =>
    simp only [live, slRenew]
    split
    · exact .inr (.inr ⟨⟨req, .inl ⟨_, rfl⟩⟩, by simp⟩)
    · split
      · exact .inr (.inr ⟨⟨req, .inl ⟨_, rfl⟩⟩, by simp⟩)
      · rename_i a _
        rcases hadd' s a.name _ req with h | h
        · exact .inl h
        · exact .inr (.inr ⟨⟨req, .inl ⟨_, h⟩⟩, by simp⟩)
  | slFindAnn req n =>
    right; right
    simp only [live, slFindAnn]
    split
    · exact ⟨⟨req, .inr ⟨_, rfl⟩⟩, by simp⟩
    · split <;> exact ⟨⟨req, .inr ⟨_, rfl⟩⟩, by simp⟩
  | complete ok =>
    simp only [live, complete]
    split
    · exact .inl rfl
    · rename_i u q hq
      split
      · exact .inl rfl
      split
      · cases u.cb with
        | none =>
          left
          cases u.act
          · exact (insert_out _ _ _).1
          · exact (erase_out _ _ _).1
          · exact (erase_out _ _ _).1
        | some c =>
          refine .inr (.inr ⟨⟨c, .inl ⟨.ok, ?_⟩⟩, by simp⟩)
          cases u.act <;> simp only [emit]
          · rw [(insert_out _ _ _).1]
          · rw [(erase_out _ _ _).1]
          · rw [(erase_out _ _ _).1]
      · split
        · exact .inr (.inr ⟨⟨_, .inl ⟨_, rfl⟩⟩, by simp⟩)
        · exact .inl rfl
  | timer id => left; simp only [live]; split <;> (try split) <;> rfl
  | faceUp f => left; simp only [live]; split <;> rfl
  | faceDown f => exact .inl rfl
  | notified f => exact .inl rfl
  | fetched active => exact .inl rfl
  | tick d => exact .inl rfl

/-- **C90**: the dataset has one entry for each name that has a route, with exactly its routes and the time they have left. -/
theorem C90_list (s : St) :
    ((listEntries s).map (·.1)).Nodup ∧ (∀ n, n ∈ (listEntries s).map (·.1) ↔ ∃ r, (n, r) ∈ s.rib) ∧
    ∀ n rs, (n, rs) ∈ listEntries s → rs ≠ [] ∧ rs.length = (s.rib.filter (fun x => x.1 == n)).length ∧
      ∀ f o c g e, ⟨f, o, c, g, e⟩ ∈ rs ↔ ∃ t, HasRoute s n f o c g t ∧ e = t.map (fun t => ((t : Int) - (s.now : Int)).tdiv 1000000) := by
  have hmap : (listEntries s).map (·.1) = names s.rib := by
    simp only [listEntries, List.map_map]
    exact List.map_id' _
  rw [hmap]
  refine ⟨names_nodup _, fun n => mem_names, fun n rs h => ?_⟩
  simp only [listEntries, List.mem_map] at h
  obtain ⟨m, hm, h⟩ := h
  cases h
  refine ⟨?_, by simp [routesOf], fun f o c g e => ?_⟩
  · obtain ⟨r, hr⟩ := mem_names.1 hm
    have := List.ne_nil_of_mem (mem_routesOf.2 hr)
    simpa using this
  · simp only [List.mem_map, mem_routesOf, HasRoute, ms]
    constructor
    · rintro ⟨r, hr, h⟩
      cases h
      exact ⟨r.expires, ⟨r, hr, rfl, rfl, rfl, rfl, rfl⟩, rfl⟩
    · rintro ⟨t, ⟨r, hr, rfl, rfl, rfl, rfl, rfl⟩, rfl⟩
      exact ⟨r, hr, rfl⟩

/-- The announcement received by the self-learning strategy has a name the FIB can take. -/
def shortEv : Ev → Prop
  | .slAnnounce _ a _ _ _ _ => a.name.length ≤ 32
  | _ => True

/-- **C90**: no history ends the daemon, as long as the names announced to the self-learning strategy have at most 32 components. What is
missing: `C90_violation`. -/
theorem C90_running_partial {evs : List Ev} (h : ∀ ev ∈ evs, shortEv ev) : (run {} evs).fault = false := by
  let Good : St → Prop := fun s => s.fault = false ∧ (∀ u ∈ s.queue, u.act = .register → u.name.length ≤ 32) ∧
    (∀ x ∈ s.rib, x.1.length ≤ 32)
  have hannot : ∀ {pre}, AnnInv (fun a f t => Accepted {} pre a f t) (run {} pre) := by
    intro pre
    have h0 : AnnInv (fun _ _ _ => False) {} := ⟨by simp, by simp⟩
    exact (run_ann (evs := pre) h0).mono (fun _ _ _ h => h.resolve_left id)
  have henq : ∀ {s : St} {l : List Upd}, Good s → (∀ u ∈ l, u.act = .register → u.name.length ≤ 32) → Good { s with queue := s.queue ++ l } := by
    intro s l hs hl
    refine ⟨hs.1, fun u hu hr => ?_, hs.2.2⟩
    rw [List.mem_append] at hu
    exact hu.elim (fun hu => hs.2.1 u hu hr) (fun hu => hl u hu hr)
  have hemit : ∀ {s : St} {o : Out}, Good s → Good (emit s o) := fun h => h
  have hadd : ∀ {s : St} {n : Name} {r : Rt} {cb : Option Nat}, Good s → n.length ≤ 32 → Good (addRoute s n r cb) := by
    intro s n r cb hs hn
    unfold addRoute
    split
    · split
      · have : Good (onRouteExpiration s n r false) := henq hs (by simp)
        dsimp only
        split
        · exact hemit this
        · exact this
      · exact henq (s := { s with timers := _, next := _ }) hs (by simp [hn])
    · exact henq hs (by simp [hn])
  have hcomp : ∀ {s : St} {ok : Bool}, Good s → Good (complete s ok) := by
    intro s ok hs
    unfold complete
    split
    · exact hs
    · rename_i u q hq
      have hd : Good { s with queue := q } := ⟨hs.1, fun v hv => hs.2.1 v (by simp [hq, hv]), hs.2.2⟩
      have hu := hs.2.1 u (by simp [hq])
      split
      · rename_i hlong
        have h1 := hu hlong.1
        have h2 := hlong.2
        simp only [Nt.maxDepth] at h2
        omega
      split
      · dsimp only
        have her : Good (erase { s with queue := q } u.name u.route) := by
          refine ⟨?_, ?_, fun x hx => hs.2.2 x (erase_mem.1 hx).1⟩
          · unfold erase; split <;> exact hs.1
          · rw [(erase_out _ _ _).2]; exact hd.2.1
        have : Good (match u.act with
          | .register => insert { s with queue := q } u.name u.route
          | .unregister => erase { s with queue := q } u.name u.route
          | .removeFace => erase { s with queue := q } u.name u.route) := by
          split
          · rename_i hr
            refine ⟨?_, ?_, fun x hx => ?_⟩
            · unfold insert; split <;> exact hs.1
            · rw [(insert_out _ _ _).2]; exact hd.2.1
            · rcases insert_mem.1 hx with rfl | hx
              · exact hu hr
              · exact hs.2.2 x hx.1
          · exact her
          · exact her
        split
        · exact hemit this
        · exact this
      · dsimp only
        split
        · exact hemit hd
        · exact hd
  have hstep : ∀ {s : St} {ev : Ev}, Good s → shortEv ev → (∀ n r a, (n, r) ∈ s.rib → r.ann = some a → n = a.name) → Good (step s ev) := by
    intro s ev hs hev hann
    unfold step
    split
    · exact hs
    cases ev with
    | register req i p =>
      simp only [live, registerEntry]
      split
      · exact hemit hs
      · rename_i hn; exact hadd (hemit hs) (by simp only [Nt.maxDepth] at hn; omega)
    | unregister req i p => exact henq (hemit hs) (by simp)
    | announce req i a v sys =>
      simp only [live, announceEntry]
      split
      · exact hemit hs
      · rename_i hn
        split
        · exact hadd (hemit hs) (by simp only [Nt.maxDepth] at hn; omega)
        · exact hemit hs
    | slAnnounce req a f l v sys =>
      simp only [live, slAnnounce]
      split
      · exact hadd hs hev
      · exact hemit hs
    | slRenew req n f l =>
      simp only [live, slRenew]
      split
      · exact hemit hs
      · rename_i old ho
        split
        · exact hemit hs
        · rename_i a ha
          obtain ⟨p, hp, _⟩ := findLongest_mem ho
          have := hs.2.2 _ hp
          rw [hann p old a hp ha] at this
          exact hadd hs this
    | slFindAnn req n =>
      simp only [live, slFindAnn]
      split
      · exact hemit hs
      · split <;> exact hemit hs
    | complete ok => exact hcomp hs
    | timer id =>
      simp only [live]
      split
      · exact hs
      · split
        · exact henq (s := { s with timers := _ }) hs (by simp)
        · exact hs
    | faceUp f => simp only [live]; split <;> exact hs
    | faceDown f => exact hs
    | notified f => exact henq hs (by simp; rintro _ _ _ _ _ rfl; simp)
    | fetched active => exact henq hs (by simp; rintro _ _ _ _ _ rfl; simp)
    | tick d => exact hs
  have key : ∀ (post pre : List Ev), (∀ ev ∈ post, shortEv ev) → Good (run {} pre) → Good (run {} (pre ++ post)) := by
    intro post
    induction post with
    | nil => intro pre _ h; simpa using h
    | cons e post ih =>
      intro pre hp hg
      have hr : run {} (pre ++ [e]) = step (run {} pre) e := by simp [run]
      have h1 : Good (run {} (pre ++ [e])) := by
        rw [hr]
        exact hstep hg (hp e (by simp)) (fun n r a hm ha => (C89_bound hm ha).1)
      have := ih (pre ++ [e]) (fun ev hev => hp ev (by simp [hev])) h1
      simpa using this
  have h0 : Good (run {} []) := ⟨rfl, by simp [run], by simp [run]⟩
  have := key evs [] h h0
  simpa using this.1

/-- The violation: a validated announcement of a name of 33 components, received by the self-learning strategy, ends the daemon. -/
theorem C90_violation : ∃ a : Ann, a.name.length = 33 ∧ (run {} [.faceUp 5, .slAnnounce 1 a 5 (600000 * ms) true 0, .complete true]).fault = true :=
  ⟨⟨List.replicate 33 ⟨8, [1]⟩, 60000 * ms, none⟩, by decide +kernel⟩

/-- The hypotheses of the theorems are met: two registrations, one for the requester's own face; one removed again. -/
example : let s := run {} [.faceUp 5, .faceUp 6, .register 1 5 (W.p none), .complete true, .register 2 5 ⟨W.n2, 6, 0, 0, 0, some 2000⟩, .complete true, .tick 500000000]
    s.fault = false ∧ s.queue = [] ∧ listEntries s = [(W.n1, [⟨5, 0, 10, 1, none⟩]), (W.n2, [⟨6, 0, 0, 0, some 1500⟩])] ∧
    (run s [.unregister 3 5 (W.p none), .complete true]).rib.length = 1 :=
  ⟨by decide +kernel, by decide +kernel, by decide +kernel, by decide +kernel⟩

namespace W

/-- The list of faces is obtained before the face comes into being; when it is used, the face has a route. -/
def stale : List Ev := [.faceUp 5, .register 1 5 (p none), .complete true, .fetched [], .complete true]

/-- The registration is completed by the forwarder just before the face goes down, and by the RIB after the notification. -/
def late : List Ev := [.faceUp 5, .register 1 5 (p none), .faceDown 5, .notified 5, .complete true]

end W

/-- Two more observations: the periodic removal of routes of faces that are gone can remove the route of a face that exists, and a face can be
gone and its route stay, until the next such removal. -/
theorem C90_faces : ((run {} W.stale).rib = [] ∧ 5 ∈ (run {} W.stale).faces) ∧
    ((run {} W.late).rib.length = 1 ∧ (run {} W.late).queue = [] ∧ (run {} W.late).faces = [] ∧
      (run {} (W.late ++ [.fetched [], .complete true])).rib = []) := by decide +kernel

end Verif.RibMgr
