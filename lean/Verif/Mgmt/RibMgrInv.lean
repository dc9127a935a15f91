import Verif.Mgmt.RibMgr

/-! Invariants of the RIB manager: every route with an expiry has a scheduled event, or is about to be removed. -/
namespace Verif.RibMgr

/-- `x` belongs to the same name, face and origin as `u`. -/
def Same (n m : Name) (r q : Rt) : Prop := n = m ∧ r.face = q.face ∧ r.origin = q.origin

theorem sameKey_iff {n m : Name} {r q : Rt} : sameKey n m r q = true ↔ Same n m r q := by
  simp [sameKey, Same, and_assoc]

theorem find_some {s : St} {n : Name} {r x : Rt} (h : find s n r = some x) : (n, x) ∈ s.rib ∧ x.face = r.face ∧ x.origin = r.origin := by
  simp only [find, Option.map_eq_some_iff] at h
  obtain ⟨y, hy, rfl⟩ := h
  have h1 := List.find?_some hy
  have h2 := List.mem_of_find?_eq_some hy
  rw [sameKey_iff] at h1
  obtain ⟨a, b, c⟩ := h1
  obtain ⟨y1, y2⟩ := y
  simp only at a b c
  subst a
  exact ⟨h2, b, c⟩

theorem find_none {s : St} {n : Name} {r : Rt} (h : find s n r = none) {x : Name × Rt} (hx : x ∈ s.rib) : ¬ Same x.1 n x.2 r := by
  simp only [find, Option.map_eq_none_iff, List.find?_eq_none] at h
  intro hs
  exact h x hx (sameKey_iff.2 hs)

/-- A scheduled event removes the route. -/
def Timed (ts : List Timer) (n : Name) (r : Rt) (t : Nat) : Prop :=
  ∃ tm ∈ ts, r.evt = some tm.id ∧ tm.due = t ∧ Same tm.name n tm.route r

/-- An update in the queue removes the route. -/
def Doomed (q : List Upd) (n : Name) (r : Rt) : Prop := ∃ v ∈ q, v.act ≠ .register ∧ Same v.name n v.route r

def QOk (ts : List Timer) : List Upd → Prop
  | [] => True
  | u :: q => (u.act = .register → ∀ t, u.route.expires = some t → Timed ts u.name u.route t ∨ Doomed q u.name u.route) ∧ QOk ts q

theorem Doomed.mono {q q' : List Upd} {n : Name} {r : Rt} (h : Doomed q n r) (hq : ∀ x ∈ q, x ∈ q') : Doomed q' n r := by
  obtain ⟨v, a, b⟩ := h; exact ⟨v, hq v a, b⟩

theorem QOk.append {ts : List Timer} {q p : List Upd} (h : QOk ts q) (hp : QOk ts p) : QOk ts (q ++ p) := by
  induction q with
  | nil => exact hp
  | cons u q ih =>
    refine ⟨fun hr t ht => ?_, ih h.2⟩
    rcases h.1 hr t ht with a | a
    · exact .inl a
    · exact .inr (a.mono (fun x hx => by simp [hx]))

theorem QOk.timers {ts ts' : List Timer} {q : List Upd} (h : QOk ts q)
    (ht : ∀ tm ∈ ts, tm ∈ ts' ∨ ∀ u ∈ q, u.act = .register → u.route.evt ≠ some tm.id) : QOk ts' q := by
  induction q with
  | nil => trivial
  | cons u q ih =>
    refine ⟨fun hr t hx => ?_, ih h.2 (fun tm htm => (ht tm htm).imp id (fun h v hv => h v (List.mem_cons_of_mem _ hv)))⟩
    rcases h.1 hr t hx with ⟨tm, a, b, c⟩ | a
    · rcases ht tm a with d | d
      · exact .inl ⟨tm, d, b, c⟩
      · exact absurd b (d u (List.mem_cons_self ..) hr)
    · exact .inr a

/-- When an event `tm` runs and removes itself, the removal of its route goes to the end of the queue. -/
theorem QOk.fire {ts ts' : List Timer} {q : List Upd} {tm : Timer} {w : Upd} (h : QOk ts q) (hw : w.act ≠ .register)
    (hn : w.name = tm.name) (hr : w.route = tm.route) (ht : ∀ x ∈ ts, x ∈ ts' ∨ x = tm) : QOk ts' (q ++ [w]) := by
  induction q with
  | nil => exact ⟨fun h => absurd h hw, trivial⟩
  | cons u q ih =>
    refine ⟨fun hu t hx => ?_, ih h.2⟩
    rcases h.1 hu t hx with ⟨x, a, b, c, d⟩ | a
    · rcases ht x a with e | e
      · exact .inl ⟨x, e, b, c, d⟩
      · subst e
        exact .inr ⟨w, by simp, hw, by rw [hn, hr]; exact d⟩
    · exact .inr (a.mono (fun x hx => by simp [hx]))

def holdersApart (q : List Upd) : Prop :=
  q.Pairwise (fun u v => u.act = .register → v.act = .register → ∀ e, u.route.evt = some e → v.route.evt ≠ some e)

structure Ok (s : St) : Prop where
  /-- one route for a name, face and origin -/
  keys : s.rib.Pairwise (fun x y => ¬ Same x.1 y.1 x.2 y.2)
  /-- an event belongs to one route -/
  ids : s.timers.Pairwise (fun x y => x.id ≠ y.id)
  idLt : ∀ t ∈ s.timers, t.id < s.next
  ribLt : ∀ x ∈ s.rib, ∀ e, x.2.evt = some e → e < s.next
  queueLt : ∀ u ∈ s.queue, ∀ e, u.act = .register → u.route.evt = some e → e < s.next
  apartRib : s.rib.Pairwise (fun x y => ∀ e, x.2.evt = some e → y.2.evt ≠ some e)
  apart : ∀ x ∈ s.rib, ∀ u ∈ s.queue, u.act = .register → ∀ e, x.2.evt = some e → u.route.evt ≠ some e
  apartQueue : holdersApart s.queue
  /-- faces -/
  facesUsed : ∀ f ∈ s.faces, f ∈ s.used
  ribUsed : ∀ x ∈ s.rib, x.2.face ∈ s.used
  /-- routes with an expiry -/
  rib : ∀ x ∈ s.rib, x.2.face ∈ s.faces → ∀ t, x.2.expires = some t → Timed s.timers x.1 x.2 t ∨ Doomed s.queue x.1 x.2
  queue : QOk s.timers s.queue

theorem ok_init : Ok {} := by
  constructor <;> simp [QOk, holdersApart]

theorem emit_ok {s : St} {o : Out} (h : Ok s) : Ok (emit s o) := by
  obtain ⟨a1, a2, a3, a4, a5, a6, a7, a8, a9, a10, a11, a12⟩ := h
  constructor <;> assumption

/-- Updates other than registrations can be queued freely. -/
theorem enqueue_ok {s : St} {l : List Upd} (h : Ok s) (hl : ∀ u ∈ l, u.act ≠ .register) : Ok { s with queue := s.queue ++ l } := by
  obtain ⟨a1, a2, a3, a4, a5, a6, a7, a8, a9, a10, a11, a12⟩ := h
  have hq : QOk s.timers l := by
    clear a12
    induction l with
    | nil => trivial
    | cons u l ih => exact ⟨fun h => absurd h (hl u (by simp)), ih (fun v hv => hl v (by simp [hv]))⟩
  constructor <;> (try simp only) <;> (try assumption)
  · intro u hu e hr; rw [List.mem_append] at hu
    rcases hu with hu | hu
    · exact a5 u hu e hr
    · exact absurd hr (hl u hu)
  · intro x hx u hu hr; rw [List.mem_append] at hu
    rcases hu with hu | hu
    · exact a7 x hx u hu hr
    · exact absurd hr (hl u hu)
  · simp only [holdersApart, List.pairwise_append]
    refine ⟨a8, ?_, fun u _ v hv _ hr => absurd hr (hl v hv)⟩
    exact List.Pairwise.imp_of_mem (R := fun _ _ => True) (fun {a b} ha _ _ hr => absurd hr (hl a ha)) (by simp [List.pairwise_iff_forall_sublist])
  · intro x hx hf t ht
    rcases a11 x hx hf t ht with h | h
    · exact .inl h
    · exact .inr (h.mono (fun y hy => by simp [hy]))
  · exact a12.append hq

theorem addRoute_ok {s : St} {n : Name} {r : Rt} {cb : Option Nat} (h : Ok s) (hr : r.expires = none → r.evt = none) : Ok (addRoute s n r cb) := by
  unfold addRoute
  split
  · rename_i t ht
    split
    · have : Ok (onRouteExpiration s n r false) := enqueue_ok h (by simp)
      dsimp only
      split
      · exact emit_ok this
      · exact this
    · obtain ⟨a1, a2, a3, a4, a5, a6, a7, a8, a9, a10, a11, a12⟩ := h
      constructor <;> (try simp only [enqueue]) <;> (try assumption)
      · rw [List.pairwise_cons]
        exact ⟨fun y hy => by have := a3 y hy; simp only [ne_eq]; omega, a2⟩
      · intro y hy; rw [List.mem_cons] at hy
        rcases hy with rfl | hy
        · simp
        · have := a3 y hy; omega
      · intro x hx e he; have := a4 x hx e he; omega
      · intro u hu e hr he; rw [List.mem_append, List.mem_singleton] at hu
        rcases hu with hu | rfl
        · have := a5 u hu e hr he; omega
        · simp only [Option.some.injEq] at he; omega
      · intro x hx u hu hr e he; rw [List.mem_append, List.mem_singleton] at hu
        rcases hu with hu | rfl
        · exact a7 x hx u hu hr e he
        · have := a4 x hx e he; simp only [ne_eq, Option.some.injEq]; omega
      · simp only [holdersApart, List.pairwise_append]
        refine ⟨a8, by simp, fun u hu v hv hr hr' e he => ?_⟩
        rw [List.mem_singleton] at hv; subst hv
        have := a5 u hu e hr he; simp only [ne_eq, Option.some.injEq]; omega
      · intro x hx hf t' ht'
        rcases a11 x hx hf t' ht' with ⟨tm, h1, h2⟩ | h
        · exact .inl ⟨tm, by simp [h1], h2⟩
        · exact .inr (h.mono (fun y hy => by simp [hy]))
      · refine QOk.append (QOk.timers a12 (fun tm htm => .inl (by simp [htm]))) ⟨fun _ t' ht' => .inl ?_, trivial⟩
        refine ⟨⟨s.next, t, n, r⟩, by simp, rfl, ?_, rfl, rfl, rfl⟩
        simp only at ht' ⊢
        rw [ht] at ht'; exact Option.some.inj ht'
  · rename_i hn
    have hev := hr hn
    obtain ⟨a1, a2, a3, a4, a5, a6, a7, a8, a9, a10, a11, a12⟩ := h
    constructor <;> (try simp only [enqueue]) <;> (try assumption)
    · intro u hu e hr he; rw [List.mem_append, List.mem_singleton] at hu
      rcases hu with hu | rfl
      · exact a5 u hu e hr he
      · simp [hev] at he
    · intro x hx u hu hr e he; rw [List.mem_append, List.mem_singleton] at hu
      rcases hu with hu | rfl
      · exact a7 x hx u hu hr e he
      · simp [hev]
    · simp only [holdersApart, List.pairwise_append]
      refine ⟨a8, by simp, fun u hu v hv hr hr' e he => ?_⟩
      rw [List.mem_singleton] at hv; subst hv; simp [hev]
    · intro x hx hf t' ht'
      rcases a11 x hx hf t' ht' with h | h
      · exact .inl h
      · exact .inr (h.mono (fun y hy => by simp [hy]))
    · exact QOk.append a12 ⟨fun _ t' ht' => by simp [hn] at ht', trivial⟩

theorem Same.symm {n m : Name} {r q : Rt} (h : Same n m r q) : Same m n q r := ⟨h.1.symm, h.2.1.symm, h.2.2.symm⟩
theorem Same.trans {n m k : Name} {r q p : Rt} (h : Same n m r q) (h' : Same m k q p) : Same n k r p :=
  ⟨h.1.trans h'.1, h.2.1.trans h'.2.1, h.2.2.trans h'.2.2⟩

/-- The first update is taken from the queue, without effect. -/
theorem drop_ok {s : St} {u : Upd} {q : List Upd} (h : Ok s) (hq : s.queue = u :: q) (hu : u.act = .register ∨ u.route.face ∉ s.faces) :
    Ok { s with queue := q } := by
  obtain ⟨a1, a2, a3, a4, a5, a6, a7, a8, a9, a10, a11, a12⟩ := h
  rw [hq] at a5 a7 a8 a11 a12
  constructor <;> (try simp only) <;> (try assumption)
  · exact fun v hv => a5 v (List.mem_cons_of_mem _ hv)
  · exact fun x hx v hv => a7 x hx v (List.mem_cons_of_mem _ hv)
  · exact (List.pairwise_cons.1 a8).2
  · intro x hx hf t ht
    rcases a11 x hx hf t ht with h | ⟨v, h1, h2, h3⟩
    · exact .inl h
    · rw [List.mem_cons] at h1
      rcases h1 with rfl | h1
      · rcases hu with hu | hu
        · exact absurd hu h2
        · exact absurd (h3.2.1 ▸ hf) hu
      · exact .inr ⟨v, h1, h2, h3⟩
  · exact a12.2

theorem rib_unique {l : List (Name × Rt)} (h : l.Pairwise (fun x y => ¬ Same x.1 y.1 x.2 y.2)) {x y : Name × Rt} (hx : x ∈ l) (hy : y ∈ l)
    (hs : Same x.1 y.1 x.2 y.2) : x = y := by
  induction l with
  | nil => cases hx
  | cons a l ih =>
    rw [List.pairwise_cons] at h
    rw [List.mem_cons] at hx hy
    rcases hx with rfl | hx <;> rcases hy with rfl | hy
    · rfl
    · exact absurd hs (h.1 _ hy)
    · exact absurd hs.symm (h.1 _ hx)
    · exact ih h.2 hx hy

theorem evt_unique {l : List (Name × Rt)} (h : l.Pairwise (fun x y => ∀ e, x.2.evt = some e → y.2.evt ≠ some e)) {x y : Name × Rt}
    {e : Nat} (hx : x ∈ l) (hy : y ∈ l) (h1 : x.2.evt = some e) (h2 : y.2.evt = some e) : x = y := by
  induction l with
  | nil => cases hx
  | cons a l ih =>
    rw [List.pairwise_cons] at h
    rw [List.mem_cons] at hx hy
    rcases hx with rfl | hx <;> rcases hy with rfl | hy
    · rfl
    · exact absurd h2 (h.1 _ hy e h1)
    · exact absurd h1 (h.1 _ hx e h2)
    · exact ih h.2 hx hy

theorem mem_cancel {s : St} {e : Option Nat} {t : Timer} : t ∈ (cancel s e).timers ↔ t ∈ s.timers ∧ some t.id ≠ e := by
  simp [cancel]

theorem insert_ok {s : St} {u : Upd} {q : List Upd} (h : Ok s) (hq : s.queue = u :: q) (hu : u.act = .register) (hf : u.route.face ∈ s.used) :
    Ok (insert { s with queue := q } u.name u.route) := by
  have hd := drop_ok h hq (.inl hu)
  have hroute := fun t ht => (by have := h.queue; rw [hq] at this; exact this.1 hu t ht :
    Timed s.timers u.name u.route t ∨ Doomed q u.name u.route)
  have hlt := h.queueLt u (by simp [hq])
  have hap := fun x hx => h.apart x hx u (by simp [hq]) hu
  have haq : ∀ v ∈ q, v.act = .register → ∀ e, u.route.evt = some e → v.route.evt ≠ some e := by
    have := h.apartQueue; rw [hq] at this
    exact fun v hv hr => (List.pairwise_cons.1 this).1 v hv hu hr
  obtain ⟨a1, a2, a3, a4, a5, a6, a7, a8, a9, a10, a11, a12⟩ := hd
  simp only at a1 a2 a3 a4 a5 a6 a7 a8 a9 a10 a11 a12
  unfold insert
  split
  · rename_i hn
    have hnone := fun {x} => find_none hn (x := x)
    simp only at hnone
    constructor <;> (try simp only) <;> (try assumption)
    · rw [List.pairwise_append]
      refine ⟨a1, by simp, fun x hx y hy => ?_⟩
      rw [List.mem_singleton] at hy; subst hy; exact hnone hx
    · intro x hx e he; rw [List.mem_append, List.mem_singleton] at hx
      rcases hx with hx | rfl
      · exact a4 x hx e he
      · exact hlt e hu he
    · rw [List.pairwise_append]
      refine ⟨a6, by simp, fun x hx y hy e he => ?_⟩
      rw [List.mem_singleton] at hy; subst hy; exact hap x hx e he
    · intro x hx v hv hr e he; rw [List.mem_append, List.mem_singleton] at hx
      rcases hx with hx | rfl
      · exact a7 x hx v hv hr e he
      · exact haq v hv hr e he
    · intro x hx; rw [List.mem_append, List.mem_singleton] at hx
      rcases hx with hx | rfl
      · exact a10 x hx
      · exact hf
    · intro x hx hf t ht; rw [List.mem_append, List.mem_singleton] at hx
      rcases hx with hx | rfl
      · exact a11 x hx hf t ht
      · exact hroute t ht
  · rename_i old ho
    obtain ⟨o1, o2, o3⟩ := find_some ho
    simp only at o1
    have hm : ∀ x ∈ s.rib.map (fun x => if sameKey x.1 u.name x.2 u.route then (u.name, u.route) else x),
        x = (u.name, u.route) ∨ (x ∈ s.rib ∧ ¬ Same x.1 u.name x.2 u.route) := by
      intro x hx
      rw [List.mem_map] at hx
      obtain ⟨y, hy, rfl⟩ := hx
      by_cases hk : sameKey y.1 u.name y.2 u.route = true
      · rw [if_pos hk]; exact .inl rfl
      · rw [if_neg hk]; exact .inr ⟨hy, fun h => hk (sameKey_iff.2 h)⟩
    have hkeep : ∀ x ∈ s.rib, ¬ Same x.1 u.name x.2 u.route → ∀ e, x.2.evt = some e → some e ≠ old.evt := by
      intro x hx hs e he hc
      have := evt_unique a6 hx o1 he hc.symm
      subst this; exact hs ⟨rfl, o2, o3⟩
    constructor <;> (try simp only [cancel]) <;> (try assumption)
    · rw [List.pairwise_map]
      refine List.Pairwise.imp_of_mem ?_ (List.Pairwise.and a1 a1)
      intro x y hx hy hxy
      obtain ⟨hxy, -⟩ := hxy
      by_cases hk : sameKey x.1 u.name x.2 u.route = true <;> by_cases hk' : sameKey y.1 u.name y.2 u.route = true
      · exact absurd ((sameKey_iff.1 hk).trans (sameKey_iff.1 hk').symm) hxy
      · rw [if_pos hk, if_neg hk']; intro h; exact hk' (sameKey_iff.2 h.symm)
      · rw [if_neg hk, if_pos hk']; intro h; exact hk (sameKey_iff.2 h)
      · rw [if_neg hk, if_neg hk']; exact hxy
    · exact List.Pairwise.filter _ a2
    · exact fun t ht => a3 t ((List.mem_filter.1 ht).1)
    · intro x hx e he
      rcases hm x hx with rfl | ⟨hx, _⟩
      · exact hlt e hu he
      · exact a4 x hx e he
    · rw [List.pairwise_map]
      refine List.Pairwise.imp_of_mem ?_ (List.Pairwise.and a1 a6)
      intro x y hx hy hxy
      obtain ⟨hxy, h6⟩ := hxy
      by_cases hk : sameKey x.1 u.name x.2 u.route = true <;> by_cases hk' : sameKey y.1 u.name y.2 u.route = true
      · exact absurd ((sameKey_iff.1 hk).trans (sameKey_iff.1 hk').symm) hxy
      · rw [if_pos hk, if_neg hk']; exact fun e he hc => hap y hy e hc he
      · rw [if_neg hk, if_pos hk']; exact fun e he => hap x hx e he
      · rw [if_neg hk, if_neg hk']; exact h6
    · intro x hx v hv hr e he
      rcases hm x hx with rfl | ⟨hx, _⟩
      · exact haq v hv hr e he
      · exact a7 x hx v hv hr e he
    · intro x hx
      rcases hm x hx with rfl | ⟨hx, _⟩
      · exact hf
      · exact a10 x hx
    · intro x hx hf t ht
      rcases hm x hx with rfl | ⟨hx, hs⟩
      · rcases hroute t ht with ⟨tm, b1, b2, b3⟩ | h
        · refine .inl ⟨tm, ?_, b2, b3⟩
          rw [List.mem_filter]
          refine ⟨b1, ?_⟩
          simp only [bne_iff_ne, ne_eq]
          intro hc; exact hap _ o1 tm.id hc.symm b2
        · exact .inr h
      · rcases a11 x hx hf t ht with ⟨tm, b1, b2, b3⟩ | h
        · refine .inl ⟨tm, ?_, b2, b3⟩
          rw [List.mem_filter]
          refine ⟨b1, ?_⟩
          simp only [bne_iff_ne]
          exact hkeep x hx hs tm.id b2
        · exact .inr h
    · refine QOk.timers a12 (fun tm htm => ?_)
      by_cases hc : some tm.id = old.evt
      · exact .inr (fun v hv hr => a7 _ o1 v hv hr tm.id hc.symm)
      · exact .inl (by rw [List.mem_filter]; exact ⟨htm, by simpa using hc⟩)

theorem erase_ok {s : St} {u : Upd} {q : List Upd} (h : Ok s) (hq : s.queue = u :: q) (hu : u.act ≠ .register) :
    Ok (erase { s with queue := q } u.name u.route) := by
  obtain ⟨a1, a2, a3, a4, a5, a6, a7, a8, a9, a10, a11, a12⟩ := h
  rw [hq] at a5 a7 a8 a11 a12
  have a11' : ∀ x ∈ s.rib, ¬ Same x.1 u.name x.2 u.route → x.2.face ∈ s.faces → ∀ t, x.2.expires = some t →
      Timed s.timers x.1 x.2 t ∨ Doomed q x.1 x.2 := by
    intro x hx hs hf t ht
    rcases a11 x hx hf t ht with h | ⟨v, h1, h2, h3⟩
    · exact .inl h
    · rw [List.mem_cons] at h1
      rcases h1 with rfl | h1
      · exact absurd h3.symm hs
      · exact .inr ⟨v, h1, h2, h3⟩
  unfold erase
  split
  · rename_i hn
    have hnone := fun {x} => find_none hn (x := x)
    simp only at hnone
    constructor <;> (try simp only) <;> (try assumption)
    · exact fun v hv => a5 v (List.mem_cons_of_mem _ hv)
    · exact fun x hx v hv => a7 x hx v (List.mem_cons_of_mem _ hv)
    · exact (List.pairwise_cons.1 a8).2
    · exact fun x hx => a11' x hx (hnone hx)
    · exact a12.2
  · rename_i old ho
    obtain ⟨o1, o2, o3⟩ := find_some ho
    simp only at o1
    have hm : ∀ x ∈ s.rib.filter (fun x => !sameKey x.1 u.name x.2 u.route), x ∈ s.rib ∧ ¬ Same x.1 u.name x.2 u.route := by
      intro x hx
      rw [List.mem_filter] at hx
      refine ⟨hx.1, fun hs => ?_⟩
      have := sameKey_iff.2 hs
      simp [this] at hx
    have hkeep : ∀ x ∈ s.rib, ¬ Same x.1 u.name x.2 u.route → ∀ e, x.2.evt = some e → some e ≠ old.evt := by
      intro x hx hs e he hc
      have := evt_unique a6 hx o1 he hc.symm
      subst this; exact hs ⟨rfl, o2, o3⟩
    constructor <;> (try simp only [cancel]) <;> (try assumption)
    · exact List.Pairwise.filter _ a1
    · exact List.Pairwise.filter _ a2
    · exact fun t ht => a3 t ((List.mem_filter.1 ht).1)
    · exact fun x hx => a4 x (hm x hx).1
    · exact fun v hv => a5 v (List.mem_cons_of_mem _ hv)
    · exact List.Pairwise.filter _ a6
    · exact fun x hx v hv => a7 x (hm x hx).1 v (List.mem_cons_of_mem _ hv)
    · exact (List.pairwise_cons.1 a8).2
    · exact fun x hx => a10 x (hm x hx).1
    · intro x hx hf t ht
      obtain ⟨hx, hs⟩ := hm x hx
      rcases a11' x hx hs hf t ht with ⟨tm, b1, b2, b3⟩ | h
      · refine .inl ⟨tm, ?_, b2, b3⟩
        rw [List.mem_filter]
        refine ⟨b1, ?_⟩
        simp only [bne_iff_ne]
        exact hkeep x hx hs tm.id b2
      · exact .inr h
    · refine QOk.timers a12.2 (fun tm htm => ?_)
      by_cases hc : some tm.id = old.evt
      · exact .inr (fun v hv hr => a7 _ o1 v (List.mem_cons_of_mem _ hv) hr tm.id hc.symm)
      · exact .inl (by rw [List.mem_filter]; exact ⟨htm, by simpa using hc⟩)

theorem complete_ok {s : St} {ok : Bool} (h : Ok s) : Ok (complete s ok) := by
  unfold complete
  split
  · exact h
  · rename_i u q hq
    dsimp only
    split
    · obtain ⟨a1, a2, a3, a4, a5, a6, a7, a8, a9, a10, a11, a12⟩ := h
      constructor <;> assumption
    split
    · rename_i hc
      have : Ok (match u.act with
        | .register => insert { s with queue := q } u.name u.route
        | .unregister => erase { s with queue := q } u.name u.route
        | .removeFace => erase { s with queue := q } u.name u.route) := by
        split
        · rename_i hu; exact insert_ok h hq hu (hc.2 hu)
        · rename_i hu; exact erase_ok h hq (by simp [hu])
        · rename_i hu; exact erase_ok h hq (by simp [hu])
      split
      · exact emit_ok this
      · exact this
    · rename_i hc
      have : Ok { s with queue := q } := by
        by_cases hu : u.act = .register
        · exact drop_ok h hq (.inl hu)
        · refine drop_ok h hq (.inr (fun hf => hc ⟨.inr hf, fun h => absurd h hu⟩))
      split
      · exact emit_ok this
      · exact this

theorem timer_unique {ts : List Timer} (h : ts.Pairwise (fun x y => x.id ≠ y.id)) {x y : Timer} (hx : x ∈ ts) (hy : y ∈ ts)
    (he : x.id = y.id) : x = y := by
  induction ts with
  | nil => cases hx
  | cons a l ih =>
    rw [List.pairwise_cons] at h
    rw [List.mem_cons] at hx hy
    rcases hx with rfl | hx <;> rcases hy with rfl | hy
    · rfl
    · exact absurd he (h.1 _ hy)
    · exact absurd he.symm (h.1 _ hx)
    · exact ih h.2 hx hy

theorem timer_ok {s : St} {id : Nat} (h : Ok s) : Ok (live s (.timer id)) := by
  simp only [live]
  split
  · exact h
  · rename_i tm htm
    have hid : tm.id = id := by simpa using List.find?_some htm
    have hmem := List.mem_of_find?_eq_some htm
    split
    · obtain ⟨a1, a2, a3, a4, a5, a6, a7, a8, a9, a10, a11, a12⟩ := h
      have hother : ∀ x ∈ s.timers, x ∈ s.timers.filter (fun x => x.id != id) ∨ x = tm := by
        intro x hx
        by_cases hc : x.id = id
        · right
          exact timer_unique a2 hx hmem (hc.trans hid.symm)
        · left; rw [List.mem_filter]; exact ⟨hx, by simpa using hc⟩
      constructor <;> (try simp only [onRouteExpiration, enqueue]) <;> (try assumption)
      · exact List.Pairwise.filter _ a2
      · exact fun t ht => a3 t ((List.mem_filter.1 ht).1)
      · intro u hu e hr he; rw [List.mem_append, List.mem_singleton] at hu
        rcases hu with hu | rfl
        · exact a5 u hu e hr he
        · simp at hr
      · intro x hx u hu hr e he; rw [List.mem_append, List.mem_singleton] at hu
        rcases hu with hu | rfl
        · exact a7 x hx u hu hr e he
        · simp at hr
      · simp only [holdersApart, List.pairwise_append]
        refine ⟨a8, by simp, fun u hu v hv hr hr' => ?_⟩
        rw [List.mem_singleton] at hv; subst hv; simp at hr'
      · intro x hx hf t ht
        rcases a11 x hx hf t ht with ⟨y, b1, b2, b3, b4⟩ | h
        · rcases hother y b1 with hy | hy
          · exact .inl ⟨y, hy, b2, b3, b4⟩
          · subst hy
            exact .inr ⟨_, by rw [List.mem_append, List.mem_singleton]; exact .inr rfl, by simp, b4⟩
        · exact .inr (h.mono (fun y hy => by simp [hy]))
      · exact QOk.fire (tm := tm) a12 (by simp) rfl rfl hother
    · exact h

theorem live_ok {s : St} {ev : Ev} (h : Ok s) : Ok (live s ev) := by
  cases ev with
  | register req i p =>
    simp only [live, registerEntry]
    split
    · exact emit_ok h
    · exact addRoute_ok (emit_ok h) (by simp)
  | unregister req i p => exact enqueue_ok (emit_ok h) (by simp)
  | announce req i a v sys =>
    simp only [live, announceEntry]
    split
    · exact emit_ok h
    · split
      · exact addRoute_ok (emit_ok h) (by simp [annRoute])
      · exact emit_ok h
  | slAnnounce req a f l v sys =>
    simp only [live, slAnnounce]
    split
    · exact addRoute_ok h (by simp)
    · exact emit_ok h
  | slRenew req n f l =>
    simp only [live, slRenew]
    split
    · exact emit_ok h
    · split
      · exact emit_ok h
      · exact addRoute_ok h (by simp)
  | slFindAnn req n =>
    simp only [live, slFindAnn]
    split
    · exact emit_ok h
    · split <;> exact emit_ok h
  | complete ok => exact complete_ok h
  | timer id => exact timer_ok h
  | faceUp f =>
    simp only [live]
    split
    · exact h
    · rename_i hf
      obtain ⟨a1, a2, a3, a4, a5, a6, a7, a8, a9, a10, a11, a12⟩ := h
      constructor <;> (try simp only) <;> (try assumption)
      · intro g hg; rw [List.mem_cons] at hg ⊢; exact hg.imp id (a9 g)
      · exact fun x hx => List.mem_cons_of_mem _ (a10 x hx)
      · intro x hx hg t ht
        rw [List.mem_cons] at hg
        rcases hg with hg | hg
        · exact absurd (hg ▸ a10 x hx) hf
        · exact a11 x hx hg t ht
  | faceDown f =>
    obtain ⟨a1, a2, a3, a4, a5, a6, a7, a8, a9, a10, a11, a12⟩ := h
    constructor <;> (try simp only [live]) <;> (try assumption)
    · exact fun g hg => a9 g ((List.mem_filter.1 hg).1)
    · exact fun x hx hg t ht => a11 x hx ((List.mem_filter.1 hg).1) t ht
  | notified f => exact enqueue_ok h (by simp; rintro _ _ _ _ _ rfl; simp)
  | fetched active => exact enqueue_ok h (by simp; rintro _ _ _ _ _ rfl; simp)
  | tick d =>
    obtain ⟨a1, a2, a3, a4, a5, a6, a7, a8, a9, a10, a11, a12⟩ := h
    constructor <;> (try simp only [live]) <;> assumption

theorem step_ok {s : St} {ev : Ev} (h : Ok s) : Ok (step s ev) := by
  unfold step
  split
  · exact h
  · exact live_ok h

theorem run_ok {s : St} {evs : List Ev} (h : Ok s) : Ok (run s evs) := by
  induction evs generalizing s with
  | nil => exact h
  | cons e evs ih => exact ih (step_ok h)

end Verif.RibMgr
