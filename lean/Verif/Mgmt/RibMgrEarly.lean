import Verif.Mgmt.RibMgrInv

/-! When no registration of a route is waiting as its expiration event runs, expiration removes only routes whose time is over. -/
namespace Verif.RibMgr

/-- Commands name faces that exist or have existed, and no registration of a route is waiting in the queue as the expiration event of
the route runs. -/
def CleanEv (s : St) : Ev → Prop
  | .register _ i p => targetFace i p.face ∈ s.used
  | .announce _ i _ _ _ => i ∈ s.used
  | .slAnnounce _ _ f _ _ _ => f ∈ s.used
  | .timer id => ∀ t ∈ s.timers, t.id = id → ∀ u ∈ s.queue, u.act = .register → ¬ Same u.name t.name u.route t.route
  | _ => True

def Clean (s : St) : List Ev → Prop
  | [] => True
  | e :: evs => CleanEv s e ∧ Clean (step s e) evs

structure Early (s : St) : Prop where
  timers : ∀ tm ∈ s.timers,
    (∃ x ∈ s.rib, x.2.evt = some tm.id ∧ x.2.expires = some tm.due ∧ Same tm.name x.1 tm.route x.2) ∨
    (∃ u ∈ s.queue, u.act = .register ∧ u.route.evt = some tm.id ∧ u.route.expires = some tm.due ∧ Same tm.name u.name tm.route u.route) ∨
    (tm.route.face ∈ s.used ∧ tm.route.face ∉ s.faces)
  regUsed : ∀ u ∈ s.queue, u.act = .register → u.route.face ∈ s.used
  early : ∀ a u b, s.queue = a ++ u :: b → u.byTimer = true →
    (∀ v ∈ a, v.act = .register → ¬ Same v.name u.name v.route u.route) ∧
    ∀ x ∈ s.rib, Same x.1 u.name x.2 u.route → x.2.face ∈ s.faces → ∃ t, x.2.expires = some t ∧ t ≤ s.now

theorem early_init : Early {} := by
  constructor <;> simp

theorem emit_early {s : St} {o : Out} (h : Early s) : Early (emit s o) := by
  obtain ⟨a, b, c⟩ := h
  constructor <;> assumption

theorem append_split {α : Type} {l p a b : List α} {u : α} (h : l ++ p = a ++ u :: b) :
    (∃ b', l = a ++ u :: b' ∧ b = b' ++ p) ∨ (∃ a', a = l ++ a' ∧ p = a' ++ u :: b) := by
  induction l generalizing a with
  | nil => exact .inr ⟨a, rfl, h⟩
  | cons x l ih =>
    cases a with
    | nil =>
      rw [List.nil_append, List.cons_append, List.cons.injEq] at h
      exact .inl ⟨l, by rw [h.1]; rfl, h.2.symm⟩
    | cons y a =>
      rw [List.cons_append, List.cons_append, List.cons.injEq] at h
      rcases ih h.2 with ⟨b', h1, h2⟩ | ⟨a', h1, h2⟩
      · exact .inl ⟨b', by rw [h1, h.1]; rfl, h2⟩
      · exact .inr ⟨a', by rw [h1, h.1]; rfl, h2⟩

/-- Updates not caused by an expiration event are queued. -/
theorem enqueue_early {s : St} {l : List Upd} {ts : List Timer} {n : Nat} (h : Early s) (hl : ∀ u ∈ l, u.byTimer = false)
    (hr : ∀ u ∈ l, u.act = .register → u.route.face ∈ s.used)
    (ht : ∀ tm ∈ ts, tm ∈ s.timers ∨ ∃ u ∈ l, u.act = .register ∧ u.route.evt = some tm.id ∧ u.route.expires = some tm.due ∧ Same tm.name u.name tm.route u.route) :
    Early { s with queue := s.queue ++ l, timers := ts, next := n } := by
  obtain ⟨a1, a2, a3⟩ := h
  constructor <;> simp only
  · intro tm htm
    rcases ht tm htm with h | ⟨u, hu, h⟩
    · rcases a1 tm h with h | ⟨u, hu, h⟩ | h
      · exact .inl h
      · exact .inr (.inl ⟨u, by simp [hu], h⟩)
      · exact .inr (.inr h)
    · exact .inr (.inl ⟨u, by simp [hu], h⟩)
  · intro u hu; rw [List.mem_append] at hu
    exact hu.elim (a2 u) (hr u)
  · intro a u b hq hb
    rcases append_split hq with ⟨b', h1, _⟩ | ⟨a', _, h2⟩
    · exact a3 a u b' h1 hb
    · have := hl u (by simp [h2]); rw [this] at hb; cases hb

theorem addRoute_early {s : St} {n : Name} {r : Rt} {cb : Option Nat} (h : Early s) (hf : r.face ∈ s.used) : Early (addRoute s n r cb) := by
  unfold addRoute
  split
  · rename_i t ht
    split
    · have : Early (onRouteExpiration s n r false) := by
        refine enqueue_early h ?_ ?_ (fun tm h => .inl h)
        · simp
        · simp
      dsimp only
      split
      · exact emit_early this
      · exact this
    · refine enqueue_early (s := s) h (by simp) (by simp [hf]) ?_
      intro tm htm; rw [List.mem_cons] at htm
      rcases htm with rfl | htm
      · exact .inr ⟨_, List.mem_singleton.2 rfl, rfl, rfl, ht, rfl, rfl, rfl⟩
      · exact .inl htm
  · exact enqueue_early h (by simp) (by simp [hf]) (fun tm h => .inl h)

theorem drop_early {s : St} {u : Upd} {q : List Upd} (h : Early s) (hq : s.queue = u :: q)
    (hu : u.act = .register → u.route.face ∉ s.faces) : Early { s with queue := q } := by
  obtain ⟨a1, a2, a3⟩ := h
  have hu' := a2 u (by simp [hq])
  rw [hq] at a1 a2 a3
  constructor <;> simp only
  · intro tm htm
    rcases a1 tm htm with h | ⟨v, hv, h1, h2, h3, h4⟩ | h
    · exact .inl h
    · rw [List.mem_cons] at hv
      rcases hv with rfl | hv
      · exact .inr (.inr (by rw [h4.2.1]; exact ⟨hu' h1, hu h1⟩))
      · exact .inr (.inl ⟨v, hv, h1, h2, h3, h4⟩)
    · exact .inr (.inr h)
  · exact fun v hv => a2 v (List.mem_cons_of_mem _ hv)
  · intro a v b e hb
    obtain ⟨h1, h2⟩ := a3 (u :: a) v b (by rw [e]; rfl) hb
    exact ⟨fun w hw => h1 w (List.mem_cons_of_mem _ hw), h2⟩

theorem insert_early {s : St} {u : Upd} {q : List Upd} (hok : Ok s) (h : Early s) (hq : s.queue = u :: q) (hu : u.act = .register) :
    Early (insert { s with queue := q } u.name u.route) := by
  obtain ⟨a1, a2, a3⟩ := h
  rw [hq] at a1 a2 a3
  have a2' : ∀ v ∈ q, v.act = .register → v.route.face ∈ s.used := fun v hv => a2 v (List.mem_cons_of_mem _ hv)
  have a3' : ∀ a v b, q = a ++ v :: b → v.byTimer = true →
      (∀ w ∈ a, w.act = .register → ¬ Same w.name v.name w.route v.route) ∧ ¬ Same u.name v.name u.route v.route ∧
      ∀ x ∈ s.rib, Same x.1 v.name x.2 v.route → x.2.face ∈ s.faces → ∃ t, x.2.expires = some t ∧ t ≤ s.now := by
    intro a v b e hb
    obtain ⟨h1, h2⟩ := a3 (u :: a) v b (by rw [e]; rfl) hb
    exact ⟨fun w hw => h1 w (List.mem_cons_of_mem _ hw), h1 u (by simp) hu, h2⟩
  unfold insert
  split
  · constructor <;> simp only
    · intro tm htm
      rcases a1 tm htm with ⟨x, hx, h⟩ | ⟨v, hv, h1, h⟩ | h
      · exact .inl ⟨x, by simp [hx], h⟩
      · rw [List.mem_cons] at hv
        rcases hv with rfl | hv
        · exact .inl ⟨_, by rw [List.mem_append]; exact .inr (List.mem_singleton.2 rfl), h⟩
        · exact .inr (.inl ⟨v, hv, h1, h⟩)
      · exact .inr (.inr h)
    · exact a2'
    · intro a v b e hb
      obtain ⟨h1, h2, h3⟩ := a3' a v b e hb
      refine ⟨h1, fun x hx hs => ?_⟩
      rw [List.mem_append, List.mem_singleton] at hx
      rcases hx with hx | rfl
      · exact h3 x hx hs
      · exact absurd hs h2
  · rename_i old ho
    obtain ⟨o1, o2, o3⟩ := find_some ho
    simp only at o1
    constructor <;> simp only [cancel]
    · intro tm htm
      rw [List.mem_filter] at htm
      obtain ⟨htm, hid⟩ := htm
      simp only [bne_iff_ne] at hid
      rcases a1 tm htm with ⟨x, hx, h1, h⟩ | ⟨v, hv, h1, h⟩ | h
      · by_cases hk : sameKey x.1 u.name x.2 u.route = true
        · have : x = (u.name, old) := rib_unique hok.keys hx o1
            ((sameKey_iff.1 hk).trans ⟨rfl, o2.symm, o3.symm⟩)
          subst this
          exact absurd h1.symm hid
        · exact .inl ⟨x, List.mem_map.2 ⟨x, hx, by rw [if_neg hk]⟩, h1, h⟩
      · rw [List.mem_cons] at hv
        rcases hv with rfl | hv
        · refine .inl ⟨(v.name, v.route), List.mem_map.2 ⟨_, o1, ?_⟩, h⟩
          rw [if_pos (sameKey_iff.2 ⟨rfl, o2, o3⟩)]
        · exact .inr (.inl ⟨v, hv, h1, h⟩)
      · exact .inr (.inr h)
    · exact a2'
    · intro a v b e hb
      obtain ⟨h1, h2, h3⟩ := a3' a v b e hb
      refine ⟨h1, fun x hx hs => ?_⟩
      rw [List.mem_map] at hx
      obtain ⟨y, hy, rfl⟩ := hx
      by_cases hk : sameKey y.1 u.name y.2 u.route = true
      · rw [if_pos hk] at hs; exact absurd hs h2
      · rw [if_neg hk] at hs ⊢; exact h3 y hy hs

theorem erase_early {s : St} {u : Upd} {q : List Upd} (hok : Ok s) (h : Early s) (hq : s.queue = u :: q) (hu : u.act ≠ .register) :
    Early (erase { s with queue := q } u.name u.route) := by
  obtain ⟨a1, a2, a3⟩ := drop_early h hq (fun h => absurd h hu)
  simp only at a1 a2 a3
  unfold erase
  split
  · exact ⟨a1, a2, a3⟩
  · rename_i old ho
    obtain ⟨o1, o2, o3⟩ := find_some ho
    simp only at o1
    constructor <;> simp only [cancel]
    · intro tm htm
      rw [List.mem_filter] at htm
      obtain ⟨htm, hid⟩ := htm
      simp only [bne_iff_ne] at hid
      rcases a1 tm htm with ⟨x, hx, h1, h⟩ | h | h
      · by_cases hk : sameKey x.1 u.name x.2 u.route = true
        · have : x = (u.name, old) := rib_unique hok.keys hx o1
            ((sameKey_iff.1 hk).trans ⟨rfl, o2.symm, o3.symm⟩)
          subst this
          exact absurd h1.symm hid
        · exact .inl ⟨x, List.mem_filter.2 ⟨hx, by simp [hk]⟩, h1, h⟩
      · exact .inr (.inl h)
      · exact .inr (.inr h)
    · exact a2
    · intro a v b e hb
      obtain ⟨h1, h2⟩ := a3 a v b e hb
      exact ⟨h1, fun x hx => h2 x (List.mem_filter.1 hx).1⟩

theorem complete_early {s : St} {ok : Bool} (hok : Ok s) (h : Early s) : Early (complete s ok) := by
  unfold complete
  split
  · exact h
  · rename_i u q hq
    dsimp only
    split
    · obtain ⟨a, b, c⟩ := h
      constructor <;> assumption
    split
    · rename_i hc
      have : Early (match u.act with
        | .register => insert { s with queue := q } u.name u.route
        | .unregister => erase { s with queue := q } u.name u.route
        | .removeFace => erase { s with queue := q } u.name u.route) := by
        split
        · rename_i hu; exact insert_early hok h hq hu
        · rename_i hu; exact erase_early hok h hq (by simp [hu])
        · rename_i hu; exact erase_early hok h hq (by simp [hu])
      split
      · exact emit_early this
      · exact this
    · rename_i hc
      have : Early { s with queue := q } := by
        refine drop_early h hq (fun hu hf => hc ⟨.inr hf, fun _ => h.regUsed u (by simp [hq]) hu⟩)
      split
      · exact emit_early this
      · exact this

theorem timer_early {s : St} {id : Nat} (hok : Ok s) (h : Early s) (hc : CleanEv s (.timer id)) : Early (live s (.timer id)) := by
  simp only [live]
  split
  · exact h
  · rename_i tm htm
    have hid : tm.id = id := by simpa using List.find?_some htm
    have hmem := List.mem_of_find?_eq_some htm
    split
    · rename_i hdue
      have hcl := hc tm hmem hid
      obtain ⟨a1, a2, a3⟩ := h
      constructor <;> simp only [onRouteExpiration, enqueue]
      · intro x hx
        rcases a1 x (List.mem_filter.1 hx).1 with h | ⟨v, hv, h⟩ | h
        · exact .inl h
        · exact .inr (.inl ⟨v, by simp [hv], h⟩)
        · exact .inr (.inr h)
      · intro v hv; rw [List.mem_append, List.mem_singleton] at hv
        rcases hv with hv | rfl
        · exact a2 v hv
        · simp
      · intro a u b e hb
        rcases append_split e with ⟨b', h1, _⟩ | ⟨a', h1, h2⟩
        · exact a3 a u b' h1 hb
        · cases a' with
          | cons y l => simp at h2
          | nil =>
            simp only [List.nil_append, List.cons.injEq] at h2
            rw [List.append_nil] at h1
            subst h1
            obtain ⟨rfl, _⟩ := h2
            refine ⟨hcl, fun x hx hs hf => ?_⟩
            rcases a1 tm hmem with ⟨y, hy, h1, h3, h4⟩ | ⟨v, hv, h1, _, _, h4⟩ | h
            · have := rib_unique hok.keys hx hy (hs.trans h4)
              subst this
              exact ⟨tm.due, h3, hdue⟩
            · exact absurd h4.symm (hcl v hv h1)
            · exact absurd (hs.2.1 ▸ hf) h.2
    · exact h

theorem live_early {s : St} {ev : Ev} (hok : Ok s) (h : Early s) (hc : CleanEv s ev) : Early (live s ev) := by
  cases ev with
  | register req i p =>
    simp only [live, registerEntry]
    split
    · exact emit_early h
    · exact addRoute_early (emit_early h) hc
  | unregister req i p => exact enqueue_early (emit_early h) (by simp) (by simp) (fun tm h => .inl h)
  | announce req i a v sys =>
    simp only [live, announceEntry]
    split
    · exact emit_early h
    · split
      · exact addRoute_early (emit_early h) hc
      · exact emit_early h
  | slAnnounce req a f l v sys =>
    simp only [live, slAnnounce]
    split
    · exact addRoute_early h hc
    · exact emit_early h
  | slRenew req n f l =>
    simp only [live, slRenew]
    split
    · exact emit_early h
    · rename_i old ho
      split
      · exact emit_early h
      · refine addRoute_early h ?_
        unfold findLongestPrefix at ho
        split at ho
        · rename_i x hx
          cases ho
          exact hok.ribUsed _ (find_some hx).1
        · rw [Option.bind_eq_some_iff] at ho
          obtain ⟨p, _, hp⟩ := ho
          exact hok.ribUsed _ (find_some hp).1
  | slFindAnn req n =>
    simp only [live, slFindAnn]
    split
    · exact emit_early h
    · split <;> exact emit_early h
  | complete ok => exact complete_early hok h
  | timer id => exact timer_early hok h hc
  | faceUp f =>
    simp only [live]
    split
    · exact h
    · rename_i hf
      obtain ⟨a1, a2, a3⟩ := h
      constructor <;> simp only
      · intro tm htm
        rcases a1 tm htm with h | h | h
        · exact .inl h
        · exact .inr (.inl h)
        · refine .inr (.inr ⟨List.mem_cons_of_mem _ h.1, ?_⟩)
          rw [List.mem_cons]
          rintro (h' | h')
          · exact hf (h' ▸ h.1)
          · exact h.2 h'
      · exact fun u hu hr => List.mem_cons_of_mem _ (a2 u hu hr)
      · intro a u b e hb
        obtain ⟨h1, h2⟩ := a3 a u b e hb
        refine ⟨h1, fun x hx hs hg => ?_⟩
        rw [List.mem_cons] at hg
        rcases hg with hg | hg
        · exact absurd (hg ▸ hok.ribUsed x hx) hf
        · exact h2 x hx hs hg
  | faceDown f =>
    obtain ⟨a1, a2, a3⟩ := h
    constructor <;> simp only [live]
    · intro tm htm
      rcases a1 tm htm with h | h | h
      · exact .inl h
      · exact .inr (.inl h)
      · exact .inr (.inr ⟨h.1, fun h' => h.2 (List.mem_filter.1 h').1⟩)
    · exact a2
    · intro a u b e hb
      obtain ⟨h1, h2⟩ := a3 a u b e hb
      exact ⟨h1, fun x hx hs hg => h2 x hx hs (List.mem_filter.1 hg).1⟩
  | notified f => exact enqueue_early h (by simp; rintro _ _ _ _ _ rfl; rfl) (by simp; rintro _ _ _ _ _ rfl; simp) (fun tm h => .inl h)
  | fetched active => exact enqueue_early h (by simp; rintro _ _ _ _ _ rfl; rfl) (by simp; rintro _ _ _ _ _ rfl; simp) (fun tm h => .inl h)
  | tick d =>
    obtain ⟨a1, a2, a3⟩ := h
    constructor <;> simp only [live]
    · exact a1
    · exact a2
    · intro a u b e hb
      obtain ⟨h1, h2⟩ := a3 a u b e hb
      refine ⟨h1, fun x hx hs hg => ?_⟩
      obtain ⟨t, ht, hle⟩ := h2 x hx hs hg
      exact ⟨t, ht, by omega⟩

theorem step_early {s : St} {ev : Ev} (hok : Ok s) (h : Early s) (hc : CleanEv s ev) : Early (step s ev) := by
  unfold step
  split
  · exact h
  · exact live_early hok h hc

theorem run_early {s : St} {evs : List Ev} (hok : Ok s) (h : Early s) (hc : Clean s evs) : Early (run s evs) := by
  induction evs generalizing s with
  | nil => exact h
  | cons e evs ih => exact ih (step_ok hok) (step_early hok h hc.1) hc.2

end Verif.RibMgr
