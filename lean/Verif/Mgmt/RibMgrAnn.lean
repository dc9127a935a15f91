import Verif.Mgmt.RibMgrInv

/-! Prefix announcements in the RIB manager: where they come from, and answers to the self-learning strategy. -/
namespace Verif.RibMgr

/-- How long an announcement is good for at the time `sys` of the system clock: its expiration period, but not beyond its validity
period, and not at all outside of it. -/
def lifetime (sys : Nat) (a : Ann) : Nat :=
  match a.validity with
  | none => a.expiration
  | some (b, e) => if b ≤ sys ∧ sys ≤ e then min a.expiration (e - sys) else 0

theorem computeExpiration_eq (now sys : Nat) (a : Ann) : computeExpiration now sys a = now + lifetime sys a := by
  unfold computeExpiration lifetime
  cases a.validity with
  | none => rfl
  | some v =>
    obtain ⟨b, e⟩ := v
    dsimp only
    split
    · rw [Nat.min_comm]
    · simp

/-- The event is the arrival of the announcement, validated, on the face; it is good until `t`. -/
def accepts (s : St) (a : Ann) (f t : Nat) : Ev → Prop
  | .announce _ i a' valid sys => valid = true ∧ a' = a ∧ i = f ∧ t = s.now + lifetime sys a
  | .slAnnounce _ a' g _ valid sys => valid = true ∧ a' = a ∧ g = f ∧ t = s.now + lifetime sys a
  | _ => False

def AnnOk (H : Ann → Nat → Nat → Prop) (n : Name) (r : Rt) : Prop :=
  ∀ a, r.ann = some a → a.name = n ∧ r.origin = originAnn ∧ r.cost = annCost ∧ r.flags = childInherit ∧ H a r.face r.annExpires ∧
    ∃ t, r.expires = some t ∧ t ≤ r.annExpires

structure AnnInv (H : Ann → Nat → Nat → Prop) (s : St) : Prop where
  rib : ∀ x ∈ s.rib, AnnOk H x.1 x.2
  queue : ∀ u ∈ s.queue, u.act = .register → AnnOk H u.name u.route

theorem AnnOk.mono {H H' : Ann → Nat → Nat → Prop} {n : Name} {r : Rt} (h : AnnOk H n r) (hh : ∀ a f t, H a f t → H' a f t) : AnnOk H' n r := by
  intro a ha
  obtain ⟨h1, h2, h3, h4, h5, h6⟩ := h a ha
  exact ⟨h1, h2, h3, h4, hh _ _ _ h5, h6⟩

theorem AnnInv.mono {H H' : Ann → Nat → Nat → Prop} {s : St} (h : AnnInv H s) (hh : ∀ a f t, H a f t → H' a f t) : AnnInv H' s :=
  ⟨fun x hx => (h.rib x hx).mono hh, fun u hu hr => (h.queue u hu hr).mono hh⟩

theorem emit_ann {H : Ann → Nat → Nat → Prop} {s : St} {o : Out} (h : AnnInv H s) : AnnInv H (emit s o) := ⟨h.rib, h.queue⟩

theorem enqueue_ann {H : Ann → Nat → Nat → Prop} {s : St} {l : List Upd} (h : AnnInv H s) (hl : ∀ u ∈ l, u.act = .register → AnnOk H u.name u.route) :
    AnnInv H { s with queue := s.queue ++ l } := by
  refine ⟨h.rib, fun u hu hr => ?_⟩
  rw [List.mem_append] at hu
  exact hu.elim (fun hu => h.queue u hu hr) (fun hu => hl u hu hr)

theorem addRoute_ann {H : Ann → Nat → Nat → Prop} {s : St} {n : Name} {r : Rt} {cb : Option Nat} (h : AnnInv H s) (hr : AnnOk H n r) :
    AnnInv H (addRoute s n r cb) := by
  unfold addRoute
  split
  · split
    · have : AnnInv H (onRouteExpiration s n r false) := enqueue_ann h (by simp)
      dsimp only
      split
      · exact emit_ann this
      · exact this
    · refine enqueue_ann (s := { s with timers := _, next := _ }) ⟨h.rib, h.queue⟩ ?_
      intro u hu _
      rw [List.mem_singleton] at hu; subst hu
      exact hr
  · refine enqueue_ann h ?_
    intro u hu _
    rw [List.mem_singleton] at hu; subst hu
    exact hr

theorem findLongest_mem {s : St} {n : Name} {r x : Rt} (h : findLongestPrefix s n r = some x) :
    ∃ p, (p, x) ∈ s.rib ∧ x.face = r.face ∧ x.origin = r.origin ∧ p <+: n := by
  unfold findLongestPrefix at h
  split at h
  · rename_i y hy
    cases h
    exact ⟨n, (find_some hy).1, (find_some hy).2.1, (find_some hy).2.2, List.prefix_refl n⟩
  · rw [Option.bind_eq_some_iff] at h
    obtain ⟨p, hp, hx⟩ := h
    refine ⟨p, (find_some hx).1, (find_some hx).2.1, (find_some hx).2.2, ?_⟩
    have : ∀ k p, findUpTo s n k = some p → p <+: n := by
      intro k
      induction k with
      | zero => intro p h; cases h
      | succ k ih =>
        intro p h
        unfold findUpTo at h
        split at h
        · cases h; exact List.take_prefix ..
        · exact ih p h
    exact this _ p hp

theorem complete_ann {H : Ann → Nat → Nat → Prop} {s : St} {ok : Bool} (h : AnnInv H s) : AnnInv H (complete s ok) := by
  unfold complete
  split
  · exact h
  · rename_i u q hq
    have hd : AnnInv H { s with queue := q } := ⟨h.rib, fun v hv => h.queue v (by simp [hq, hv])⟩
    have hu := h.queue u (by simp [hq])
    split
    · exact ⟨h.rib, h.queue⟩
    split
    · dsimp only
      have her : AnnInv H (erase { s with queue := q } u.name u.route) := by
        unfold erase
        split
        · exact hd
        · exact ⟨fun x hx => h.rib x (List.mem_filter.1 hx).1, hd.queue⟩
      have : AnnInv H (match u.act with
        | .register => insert { s with queue := q } u.name u.route
        | .unregister => erase { s with queue := q } u.name u.route
        | .removeFace => erase { s with queue := q } u.name u.route) := by
        split
        · rename_i hr
          unfold insert
          split
          · refine ⟨fun x hx => ?_, hd.queue⟩
            simp only [List.mem_append, List.mem_singleton] at hx
            rcases hx with hx | rfl
            · exact h.rib x hx
            · exact hu hr
          · refine ⟨fun x hx => ?_, hd.queue⟩
            simp only [List.mem_map] at hx
            obtain ⟨y, hy, rfl⟩ := hx
            split
            · exact hu hr
            · exact h.rib y hy
        · exact her
        · exact her
      split
      · exact emit_ann this
      · exact this
    · dsimp only
      split
      · exact emit_ann hd
      · exact hd

theorem live_ann {H : Ann → Nat → Nat → Prop} {s : St} {ev : Ev} (h : AnnInv H s) :
    AnnInv (fun a f t => H a f t ∨ accepts s a f t ev) (live s ev) := by
  have hm : ∀ {s : St}, AnnInv H s → AnnInv (fun a f t => H a f t ∨ accepts s a f t ev) s := fun h => h.mono (fun _ _ _ => .inl)
  have hw : AnnInv (fun a f t => H a f t ∨ accepts s a f t ev) s := hm h
  cases ev with
  | register req i p =>
    simp only [live, registerEntry]
    split
    · exact emit_ann hw
    · exact addRoute_ann (emit_ann hw) (fun a ha => by simp at ha)
  | unregister req i p => exact enqueue_ann (emit_ann hw) (by simp)
  | announce req i a v sys =>
    simp only [live, announceEntry]
    split
    · exact emit_ann hw
    · split
      · rename_i hv
        refine addRoute_ann (emit_ann hw) (fun a' ha => ?_)
        simp only [annRoute, Option.some.injEq] at ha
        subst ha
        refine ⟨rfl, rfl, rfl, rfl, .inr ⟨hv, rfl, rfl, ?_⟩, _, rfl, Nat.le_refl _⟩
        simp only [annRoute]; exact computeExpiration_eq ..
      · exact emit_ann hw
  | slAnnounce req a f l v sys =>
    simp only [live, slAnnounce]
    split
    · rename_i hv
      refine addRoute_ann hw (fun a' ha => ?_)
      simp only [annRoute, Option.some.injEq] at ha
      subst ha
      refine ⟨rfl, rfl, rfl, rfl, .inr ⟨hv, rfl, rfl, ?_⟩, _, rfl, Nat.min_le_left ..⟩
      simp only [annRoute]; exact computeExpiration_eq ..
    · exact emit_ann hw
  | slRenew req n f l =>
    simp only [live, slRenew]
    split
    · exact emit_ann hw
    · rename_i old ho
      split
      · exact emit_ann hw
      · rename_i a ha
        refine addRoute_ann hw (fun a' ha' => ?_)
        simp only [ha, Option.some.injEq] at ha'
        subst ha'
        obtain ⟨p, hp, _⟩ := findLongest_mem ho
        obtain ⟨h1, h2, h3, h4, h5, _⟩ := hw.rib _ hp a ha
        exact ⟨rfl, h2, h3, h4, h5, _, rfl, Nat.min_le_left ..⟩
  | slFindAnn req n =>
    simp only [live, slFindAnn]
    split
    · exact emit_ann hw
    · split <;> exact emit_ann hw
  | complete ok => exact complete_ann hw
  | timer id =>
    simp only [live]
    split
    · exact hw
    · split
      · exact enqueue_ann (s := { s with timers := _ }) ⟨hw.rib, hw.queue⟩ (by simp)
      · exact hw
  | faceUp f =>
    simp only [live]
    split
    · exact hw
    · exact ⟨hw.rib, hw.queue⟩
  | faceDown f => exact ⟨hw.rib, hw.queue⟩
  | notified f => exact enqueue_ann hw (by simp; rintro _ _ _ _ _ rfl; simp)
  | fetched active => exact enqueue_ann hw (by simp; rintro _ _ _ _ _ rfl; simp)
  | tick d => exact ⟨hw.rib, hw.queue⟩

/-- Somewhere in the history the announcement was accepted. -/
def Accepted (s : St) (evs : List Ev) (a : Ann) (f t : Nat) : Prop :=
  ∃ pre ev post, evs = pre ++ ev :: post ∧ accepts (run s pre) a f t ev

theorem run_ann {H : Ann → Nat → Nat → Prop} {s : St} {evs : List Ev} (h : AnnInv H s) :
    AnnInv (fun a f t => H a f t ∨ Accepted s evs a f t) (run s evs) := by
  induction evs generalizing s H with
  | nil => exact h.mono (fun _ _ _ => .inl)
  | cons e evs ih =>
    have h1 : AnnInv (fun a f t => H a f t ∨ accepts s a f t e) (step s e) := by
      unfold step
      split
      · exact h.mono (fun _ _ _ => .inl)
      · exact live_ann h
    refine (ih h1).mono (fun a f t => ?_)
    rintro ((h | h) | ⟨pre, ev, post, h1, h2⟩)
    · exact .inl h
    · exact .inr ⟨[], e, evs, rfl, h⟩
    · exact .inr ⟨e :: pre, ev, post, by rw [h1]; rfl, h2⟩

/-! ## Answers -/

/-- The number of answers to a request of the self-learning strategy to add or renew a route. -/
def answers (out : List Out) (req : Nat) : Nat := out.countP (fun o => match o with | .sl q _ => q == req | _ => false)

def waiting (q : List Upd) (req : Nat) : Nat := q.countP (fun u => u.cb == some req)

def asks1 (req : Nat) : Ev → Bool
  | .slAnnounce q _ _ _ _ _ => q == req
  | .slRenew q _ _ _ => q == req
  | _ => false

/-- The number of times the request was made. -/
def asks (evs : List Ev) (req : Nat) : Nat := evs.countP (asks1 req)

def total (s : St) (req : Nat) : Nat := answers s.out req + waiting s.queue req

theorem insert_out (s : St) (n : Name) (r : Rt) : (insert s n r).out = s.out ∧ (insert s n r).queue = s.queue := by
  unfold insert; split <;> simp [cancel]

theorem erase_out (s : St) (n : Name) (r : Rt) : (erase s n r).out = s.out ∧ (erase s n r).queue = s.queue := by
  unfold erase; split <;> simp [cancel]

theorem addRoute_total (s : St) (n : Name) (r : Rt) (cb : Option Nat) (req : Nat) :
    total (addRoute s n r cb) req = total s req + if cb = some req then 1 else 0 := by
  unfold addRoute
  split
  · split
    · dsimp only
      cases cb with
      | none => simp [total, answers, waiting, onRouteExpiration, enqueue]
      | some q =>
        by_cases hq : q = req
        · subst hq; simp [total, answers, waiting, onRouteExpiration, enqueue, emit]; omega
        · simp [total, answers, waiting, onRouteExpiration, enqueue, emit, hq]
    · by_cases hq : cb = some req
      · simp [total, answers, waiting, enqueue, hq]; omega
      · simp [total, answers, waiting, enqueue, hq]
  · by_cases hq : cb = some req
    · simp [total, answers, waiting, enqueue, hq]; omega
    · simp [total, answers, waiting, enqueue, hq]

theorem emit_total (s : St) (o : Out) (req : Nat) (h : ∀ q r, o ≠ .sl q r) : total (emit s o) req = total s req := by
  cases o with
  | sl q r => exact absurd rfl (h q r)
  | reply _ _ _ => simp [total, answers, emit]
  | ann _ _ => simp [total, answers, emit]

theorem emit_sl_total (s : St) (q req : Nat) (r : SlRes) : total (emit s (.sl q r)) req = total s req + if q = req then 1 else 0 := by
  by_cases hq : q = req
  · simp [total, answers, emit, hq]; omega
  · simp [total, answers, emit, hq]

theorem enqueue_total (s : St) (l : List Upd) (req : Nat) (h : ∀ u ∈ l, u.cb = none) : total { s with queue := s.queue ++ l } req = total s req := by
  have : l.countP (fun u => u.cb == some req) = 0 := by
    rw [List.countP_eq_zero]; intro u hu; simp [h u hu]
  simp [total, waiting, this]

theorem complete_total (s : St) (ok : Bool) (req : Nat) : total (complete s ok) req = total s req := by
  unfold complete
  split
  · rfl
  · rename_i u q hq
    have hw : ∀ (t : St), t.out = s.out → t.queue = q → ∀ r, total (match u.cb with | some req => emit t (.sl req r) | none => t) req = total s req := by
      intro t h1 h2 r
      cases hcb : u.cb with
      | none => simp [total, h1, h2, hq, waiting, hcb]
      | some c =>
        dsimp only
        rw [emit_sl_total]
        by_cases hc : c = req
        · simp [total, h1, h2, hq, waiting, hcb, hc]; omega
        · simp [total, h1, h2, hq, waiting, hcb, hc]
    split
    · rfl
    split
    · dsimp only
      refine hw _ ?_ ?_ _
      · split
        · exact (insert_out _ _ _).1
        · exact (erase_out _ _ _).1
        · exact (erase_out _ _ _).1
      · split
        · exact (insert_out _ _ _).2
        · exact (erase_out _ _ _).2
        · exact (erase_out _ _ _).2
    · exact hw { s with queue := q } rfl rfl _

theorem live_total (s : St) (ev : Ev) (req : Nat) : total (live s ev) req = total s req + if asks1 req ev = true then 1 else 0 := by
  cases ev with
  | register q i p =>
    simp only [live, registerEntry, asks1]
    split
    · exact emit_total _ _ _ (by simp)
    · rw [addRoute_total, emit_total _ _ _ (by simp)]; simp
  | unregister q i p =>
    simp only [live, unregisterEntry, asks1, enqueue]
    refine (enqueue_total _ _ _ (by simp)).trans ?_
    rw [emit_total _ _ _ (by simp)]; simp
  | announce q i a v sys =>
    simp only [live, announceEntry, asks1]
    split
    · exact emit_total _ _ _ (by simp)
    · split
      · rw [addRoute_total, emit_total _ _ _ (by simp)]; simp
      · exact emit_total _ _ _ (by simp)
  | slAnnounce q a f l v sys =>
    simp only [live, slAnnounce, asks1]
    split
    · rw [addRoute_total]; simp
    · rw [emit_sl_total]; simp
  | slRenew q n f l =>
    simp only [live, slRenew, asks1]
    split
    · rw [emit_sl_total]; simp
    · split
      · rw [emit_sl_total]; simp
      · rw [addRoute_total]; simp
  | slFindAnn q n =>
    simp only [live, slFindAnn, asks1]
    split
    · exact emit_total _ _ _ (by simp)
    · split <;> exact emit_total _ _ _ (by simp)
  | complete ok => simpa [asks1, live] using complete_total s ok req
  | timer id =>
    simp only [live, asks1]
    split
    · rfl
    · split
      · exact enqueue_total { s with timers := _ } _ _ (by simp)
      · rfl
  | faceUp f => simp only [live, asks1]; split <;> rfl
  | faceDown f => rfl
  | notified f => exact enqueue_total _ _ _ (by simp; rintro _ _ _ _ _ rfl; rfl)
  | fetched active => exact enqueue_total _ _ _ (by simp; rintro _ _ _ _ _ rfl; rfl)
  | tick d => rfl

theorem step_fault {s : St} {ev : Ev} (h : s.fault = true) : step s ev = s := by simp [step, h]

theorem run_fault {s : St} {evs : List Ev} (h : s.fault = true) : run s evs = s := by
  induction evs with
  | nil => rfl
  | cons e evs ih => simp only [run, List.foldl_cons, step_fault h]; exact ih

theorem run_total {s : St} {evs : List Ev} (req : Nat) (h : (run s evs).fault = false) : total (run s evs) req = total s req + asks evs req := by
  induction evs generalizing s with
  | nil => rfl
  | cons e evs ih =>
    have hs : s.fault = false := by
      cases hf : s.fault with
      | false => rfl
      | true => rw [run_fault hf, hf] at h; cases h
    have := ih (s := step s e) h
    simp only [run, List.foldl_cons] at this ⊢
    rw [this]
    have h1 : step s e = live s e := by simp [step, hs]
    rw [h1, live_total]
    simp only [asks, List.countP_cons]
    omega

end Verif.RibMgr
