import Verif.Rib.ReadvSpec

/-! Lemmas for the properties of readvertising. -/
namespace Verif.Readv

/-! ### Invariant -/

def Inflight (s : St) (op : Op) (id : Nat) : Prop := ∃ c ∈ s.flight, c.op = op ∧ c.target = id

structure Inv (s : St) (l : List (Route × Option Name)) : Prop where
  ids : ∀ x ∈ s.recs, ∀ y ∈ s.recs, x.id = y.id → x = y
  pfxs : ∀ x ∈ s.recs, ∀ y ∈ s.recs, x.pfx = y.pfx → x = y
  fresh : ∀ x ∈ s.recs, x.id < s.next
  keys : s.map.Pairwise (fun a b => a.1 ≠ b.1)
  count : ∀ x ∈ s.recs, (s.map.filter (fun y => y.2 == x.id)).length = x.n
  target : ∀ y ∈ s.map, ∃ x ∈ s.recs, x.id = y.2 ∧ (y.1, some x.pfx) ∈ l
  back : ∀ r p, (r, some p) ∈ l → ∃ x ∈ s.recs, x.pfx = p ∧ (r, x.id) ∈ s.map
  rkeys : l.Pairwise (fun a b => a.1 ≠ b.1)
  serials : s.flight.Pairwise (fun a b => a.serial ≠ b.serial)
  sfresh : ∀ c ∈ s.flight, c.serial < s.next
  flight : ∀ c ∈ s.flight, ∃ x ∈ s.recs, x.id = c.target ∧ x.pfx = c.pfx ∧ (c.op = .adv ↔ x.n ≠ 0)
  one : ∀ x ∈ s.recs, x.n = 0 → ∀ c ∈ s.flight, ∀ c' ∈ s.flight, c.target = x.id → c'.target = x.id → c = c'
  zero : ∀ x ∈ s.recs, x.n = 0 → s.avail = true ∧ ((Inflight s .wd x.id ∧ ∀ d, x.evt ≠ some (.wd, d)) ∨
    (¬ Inflight s .wd x.id ∧ status x.pfx s.out = none ∧ ∃ d, x.evt = some (.wd, d)))
  pos : ∀ x ∈ s.recs, x.n ≠ 0 → ∀ d, x.evt ≠ some (.wd, d)
  live : ∀ x ∈ s.recs, x.n ≠ 0 → s.avail = true → Inflight s .adv x.id ∨
    ((∃ d, x.evt = some (.adv, d)) ∧ (status x.pfx s.out = some true ∨ status x.pfx s.out = none))
  gone : s.avail = true → ∀ p, (∀ x ∈ s.recs, x.pfx ≠ p) → status p s.out = some false

theorem get_some {s : St} {id : Nat} {x : Rec} (h : get s id = some x) : x ∈ s.recs ∧ x.id = id := by
  unfold get at h
  exact ⟨List.mem_of_find?_eq_some h, by simpa using List.find?_some h⟩

theorem get_of {s : St} (hi : ∀ x ∈ s.recs, ∀ y ∈ s.recs, x.id = y.id → x = y) {x : Rec} (h : x ∈ s.recs) : get s x.id = some x := by
  cases hg : get s x.id with
  | none => unfold get at hg; rw [List.find?_eq_none] at hg; exact absurd (BEq.rfl : (x.id == x.id) = true) (hg x h)
  | some y => have := get_some hg; rw [hi y this.1 x h this.2]

theorem mem_set {s : St} {x y : Rec} : y ∈ (set s x).recs ↔ (∃ z ∈ s.recs, z.id = x.id ∧ y = x) ∨ (y ∈ s.recs ∧ y.id ≠ x.id) := by
  unfold set
  simp only [List.mem_map]
  constructor
  · rintro ⟨z, hz, rfl⟩
    by_cases h : z.id = x.id
    · rw [if_pos h]; exact Or.inl ⟨z, hz, h, rfl⟩
    · rw [if_neg h]; exact Or.inr ⟨hz, h⟩
  · rintro (⟨z, hz, h, rfl⟩ | ⟨hy, h⟩)
    · exact ⟨z, hz, by rw [if_pos h]⟩
    · exact ⟨y, hy, by rw [if_neg h]⟩

theorem status_append (p : Name) (a : List Out) (o : Out) : status p (a ++ [o]) = statusAfter p (status p a) o := by
  unfold status; rw [List.foldl_append]; rfl

theorem inflight_send {s : St} {op op' : Op} {x : Rec} {id : Nat} : Inflight (send s op x) op' id ↔ Inflight s op' id ∨ (op' = op ∧ id = x.id) := by
  unfold Inflight send
  simp only [List.mem_append, List.mem_singleton]
  constructor
  · rintro ⟨c, h | rfl, h1, h2⟩
    · exact Or.inl ⟨c, h, h1, h2⟩
    · exact Or.inr ⟨h1.symm, h2.symm⟩
  · rintro (⟨c, h, h1, h2⟩ | ⟨rfl, rfl⟩)
    · exact ⟨c, Or.inl h, h1, h2⟩
    · exact ⟨_, Or.inr rfl, rfl, rfl⟩

/-- Changes of the timer, the delay and the signer of a record with routes that keeps it scheduled. -/
theorem inv_set_pos {s : St} {l : List (Route × Option Name)} (h : Inv s l) {x y : Rec} (hx : x ∈ s.recs) (h1 : y.id = x.id) (h2 : y.pfx = x.pfx) (h3 : y.n = x.n)
    (h4 : x.n ≠ 0) (h5 : ∀ d, y.evt ≠ some (.wd, d)) (h6 : s.avail = true → Inflight s .adv x.id ∨ ((∃ d, y.evt = some (.adv, d)) ∧ (status x.pfx s.out = some true ∨ status x.pfx s.out = none))) :
    Inv (set s y) l := by
  have hm : ∀ z, z ∈ (set s y).recs ↔ z = y ∨ (z ∈ s.recs ∧ z.id ≠ x.id) := by
    intro z; rw [mem_set, h1]
    constructor
    · rintro (⟨w, -, -, rfl⟩ | h); exact Or.inl rfl; exact Or.inr h
    · rintro (rfl | h); exact Or.inl ⟨x, hx, rfl, rfl⟩; exact Or.inr h
  obtain ⟨a1, a2, a3, a4, a5, a6, a7, a8, a9, a10, a11, a12, a13, a14, a15, a16⟩ := h
  have e1 : (set s y).map = s.map := rfl
  have e2 : (set s y).flight = s.flight := rfl
  have e3 : (set s y).next = s.next := rfl
  have e4 : (set s y).out = s.out := rfl
  have e5 : (set s y).avail = s.avail := rfl
  have e6 : ∀ op id, Inflight (set s y) op id = Inflight s op id := fun _ _ => rfl
  constructor <;> (try simp only [e1, e2, e3, e4, e5, e6]) <;> grind

theorem inv_send {s : St} {l : List (Route × Option Name)} (h : Inv s l) {x : Rec} (hx : x ∈ s.recs) (hn : x.n ≠ 0) : Inv (send s .adv x) l := by
  have e6 : ∀ op id, Inflight (send s .adv x) op id ↔ Inflight s op id ∨ (op = .adv ∧ id = x.id) := fun _ _ => inflight_send
  have e4 : ∀ p, status p (send s .adv x).out = status p s.out := fun p => by unfold send; exact status_append p _ _
  have e7 : (send s .adv x).flight = s.flight ++ [⟨s.next, .adv, x.id, x.pfx⟩] := rfl
  have e3 : (send s .adv x).next = s.next + 1 := rfl
  have e1 : (send s .adv x).recs = s.recs := rfl
  have e2 : (send s .adv x).map = s.map := rfl
  have e5 : (send s .adv x).avail = s.avail := rfl
  obtain ⟨a1, a2, a3, a4, a5, a6, a7, a8, a9, a10, a11, a12, a13, a14, a15, a16⟩ := h
  constructor <;> (try simp only [e1, e2, e3, e4, e5, e6]) <;> (try assumption)
  · grind
  · rw [e7, List.pairwise_append]; refine ⟨a9, by simp, ?_⟩; grind
  · rw [e7]; grind
  · rw [e7]; grind
  · rw [e7]; grind
  · intro y hy hy0
    have : y.id ≠ x.id := fun h => hn (a1 y hy x hx h ▸ hy0)
    have := a13 y hy hy0
    grind
  · grind

theorem advertise_ok {s : St} {l : List (Route × Option Name)} (h : Inv s l) {x : Rec} (hx : x ∈ s.recs) (hn : x.n ≠ 0) :
    ∃ s', advertise s x.id = .ok s' ∧ Inv s' l ∧ s'.alive = s.alive ∧ s'.avail = s.avail ∧ s'.recs = s.recs := by
  unfold advertise
  rw [get_of h.ids hx]
  simp only [if_neg hn]
  by_cases ha : s.avail = false
  · rw [if_pos ha]; exact ⟨s, rfl, h, rfl, rfl, rfl⟩
  · rw [if_neg ha]; exact ⟨_, rfl, inv_send h hx hn, rfl, rfl, rfl⟩

/-- A route is added for a prefix that has routes already. -/
theorem inv_add_more {s : St} {l : List (Route × Option Name)} (h : Inv s l) {x : Rec} (hx : x ∈ s.recs) (hn : x.n ≠ 0) (sg : Option Name) {r : Route} (hr : ∀ y ∈ l, y.1 ≠ r) :
    Inv (set { s with map := (r, x.id) :: s.map } { x with signer := sg, n := x.n + 1 }) ((r, some x.pfx) :: l) := by
  have hm : ∀ z, z ∈ (set { s with map := (r, x.id) :: s.map } { x with signer := sg, n := x.n + 1 }).recs ↔ z = { x with signer := sg, n := x.n + 1 } ∨ (z ∈ s.recs ∧ z.id ≠ x.id) := by
    intro z; rw [mem_set]
    constructor
    · rintro (⟨w, -, -, rfl⟩ | h); exact Or.inl rfl; exact Or.inr h
    · rintro (rfl | h); exact Or.inl ⟨x, hx, rfl, rfl⟩; exact Or.inr h
  generalize hs' : set { s with map := (r, x.id) :: s.map } { x with signer := sg, n := x.n + 1 } = s' at *
  have e1 : s'.map = (r, x.id) :: s.map := by rw [← hs']; rfl
  have e2 : s'.flight = s.flight := by rw [← hs']; rfl
  have e3 : s'.next = s.next := by rw [← hs']; rfl
  have e4 : s'.out = s.out := by rw [← hs']; rfl
  have e5 : s'.avail = s.avail := by rw [← hs']; rfl
  have e6 : ∀ op id, Inflight s' op id ↔ Inflight s op id := fun _ _ => by unfold Inflight; rw [e2]
  obtain ⟨a1, a2, a3, a4, a5, a6, a7, a8, a9, a10, a11, a12, a13, a14, a15, a16⟩ := h
  have hk : ∀ y ∈ s.map, y.1 ≠ r := fun y hy => by obtain ⟨z, -, -, hz⟩ := a6 y hy; exact hr _ hz
  have hl : ∀ z ∈ s.recs, ∃ z' ∈ s'.recs, z'.id = z.id ∧ z'.pfx = z.pfx ∧ (z'.n ≠ 0 ↔ z.n ≠ 0) := by
    intro z hz
    by_cases hzx : z.id = x.id
    · cases a1 z hz x hx hzx
      exact ⟨_, (hm _).2 (Or.inl rfl), rfl, rfl, by simp [hn]⟩
    · exact ⟨z, (hm z).2 (Or.inr ⟨hz, hzx⟩), rfl, rfl, Iff.rfl⟩
  clear hs'
  constructor <;> (try simp only [e1, e2, e3, e4, e5, e6]) <;> (try assumption)
  · grind
  · grind
  · grind
  · rw [List.pairwise_cons]; exact ⟨fun y hy => (hk y hy).symm, a4⟩
  · intro z hz
    rcases (hm z).1 hz with rfl | ⟨hz, hne⟩
    · simp only [List.filter_cons, BEq.rfl, if_true, List.length_cons, a5 x hx]
    · rw [List.filter_cons, if_neg (by simpa using Ne.symm hne)]; exact a5 z hz
  · intro y hy
    rcases List.mem_cons.1 hy with rfl | hy
    · exact ⟨_, (hm _).2 (Or.inl rfl), rfl, List.mem_cons_self⟩
    · obtain ⟨z, hz, h1, h2⟩ := a6 y hy
      obtain ⟨z', hz', h3, h4, -⟩ := hl z hz
      exact ⟨z', hz', h3.trans h1, List.mem_cons_of_mem _ (h4 ▸ h2)⟩
  · intro r' p hrp
    rcases List.mem_cons.1 hrp with hrp | hrp
    · cases hrp; exact ⟨_, (hm _).2 (Or.inl rfl), rfl, List.mem_cons_self⟩
    · obtain ⟨z, hz, h1, h2⟩ := a7 r' p hrp
      obtain ⟨z', hz', h3, h4, -⟩ := hl z hz
      exact ⟨z', hz', h4.trans h1, List.mem_cons_of_mem _ (h3 ▸ h2)⟩
  · rw [List.pairwise_cons]; exact ⟨fun y hy => (hr y hy).symm, a8⟩
  · intro c hc
    obtain ⟨z, hz, h1, h2, h3⟩ := a11 c hc
    obtain ⟨z', hz', h4, h5, h6⟩ := hl z hz
    exact ⟨z', hz', h4.trans h1, h5.trans h2, h3.trans h6.symm⟩
  · grind
  · grind
  · grind
  · grind
  · grind

/-- A route is added for a new prefix while the destination is not available. -/
theorem inv_add_new {s : St} {l : List (Route × Option Name)} (h : Inv s l) (a : Action) (hp : ∀ x ∈ s.recs, x.pfx ≠ a.pfx) {r : Route} (hr : ∀ y ∈ l, y.1 ≠ r)
    {s' : St} (e0 : s'.recs = ⟨s.next, a.pfx, a.cost, a.signer, 1, retryMin, none⟩ :: s.recs) (e1 : s'.map = (r, s.next) :: s.map)
    (e2 : s'.flight = if s.avail then s.flight ++ [⟨s.next + 1, .adv, s.next, a.pfx⟩] else s.flight)
    (e3 : s'.next = if s.avail then s.next + 2 else s.next + 1) (e4 : ∀ p, status p s'.out = status p s.out) (e5 : s'.avail = s.avail) :
    Inv s' ((r, some a.pfx) :: l) := by
  obtain ⟨a1, a2, a3, a4, a5, a6, a7, a8, a9, a10, a11, a12, a13, a14, a15, a16⟩ := h
  have hk : ∀ y ∈ s.map, y.1 ≠ r := fun y hy => by obtain ⟨z, -, -, hz⟩ := a6 y hy; exact hr _ hz
  have hc : ∀ c, c ∈ s'.flight ↔ c ∈ s.flight ∨ (s.avail = true ∧ c = ⟨s.next + 1, .adv, s.next, a.pfx⟩) := by
    intro c; rw [e2]; cases s.avail <;> simp
  have hf : ∀ op id, Inflight s' op id ↔ Inflight s op id ∨ (s.avail = true ∧ op = .adv ∧ id = s.next) := by
    intro op id
    unfold Inflight
    constructor
    · rintro ⟨c, h, h1, h2⟩
      rcases (hc c).1 h with h' | ⟨h', rfl⟩
      · exact Or.inl ⟨c, h', h1, h2⟩
      · exact Or.inr ⟨h', h1.symm, h2.symm⟩
    · rintro (⟨c, h, h1, h2⟩ | ⟨h, rfl, rfl⟩)
      · exact ⟨c, (hc c).2 (Or.inl h), h1, h2⟩
      · exact ⟨_, (hc _).2 (Or.inr ⟨h, rfl⟩), rfl, rfl⟩
  have hnx : s.next < s'.next := by rw [e3]; split <;> omega
  have hm : ∀ y ∈ s.map, y.2 < s.next := fun y hy => by obtain ⟨z, hz, h1, -⟩ := a6 y hy; rw [← h1]; exact a3 z hz
  have hcf : ∀ c ∈ s.flight, c.target < s.next := fun c hy => by obtain ⟨z, hz, h1, -⟩ := a11 c hy; rw [← h1]; exact a3 z hz
  constructor <;> (try simp only [e0, e1, e4, e5, hf]) <;> (try assumption)
  · grind
  · grind
  · grind
  · rw [List.pairwise_cons]; exact ⟨fun y hy => (hk y hy).symm, a4⟩
  · intro z hz
    rcases List.mem_cons.1 hz with rfl | hz
    · simp only [List.filter_cons, BEq.rfl, if_true, List.length_cons]
      rw [List.filter_eq_nil_iff.2]; rfl
      intro y hy; have := hm y hy; simp; omega
    · have := a3 z hz
      rw [List.filter_cons, if_neg (by simp; omega)]; exact a5 z hz
  · intro y hy
    rcases List.mem_cons.1 hy with rfl | hy
    · exact ⟨_, List.mem_cons_self, rfl, List.mem_cons_self⟩
    · obtain ⟨z, hz, h1, h2⟩ := a6 y hy
      exact ⟨z, List.mem_cons_of_mem _ hz, h1, List.mem_cons_of_mem _ h2⟩
  · intro r' p hrp
    rcases List.mem_cons.1 hrp with hrp | hrp
    · cases hrp; exact ⟨_, List.mem_cons_self, rfl, List.mem_cons_self⟩
    · obtain ⟨z, hz, h1, h2⟩ := a7 r' p hrp
      exact ⟨z, List.mem_cons_of_mem _ hz, h1, List.mem_cons_of_mem _ h2⟩
  · rw [List.pairwise_cons]; exact ⟨fun y hy => (hr y hy).symm, a8⟩
  · rw [e2]; split
    · rw [List.pairwise_append]; refine ⟨a9, by simp, ?_⟩; grind
    · exact a9
  · grind
  · intro c hcc
    rcases (hc c).1 hcc with h | ⟨h, rfl⟩
    · obtain ⟨x, hx, h1⟩ := a11 c h; exact ⟨x, List.mem_cons_of_mem _ hx, h1⟩
    · exact ⟨_, List.mem_cons_self, rfl, rfl, by simp⟩
  · intro z hz hz0 c hcc c' hcc'
    rcases List.mem_cons.1 hz with rfl | hz
    · simp at hz0
    · have := a3 z hz
      rcases (hc c).1 hcc with h | ⟨h, rfl⟩ <;> rcases (hc c').1 hcc' with h' | ⟨h', rfl⟩
      · exact a12 z hz hz0 c h c' h'
      · intro _ h2; simp at h2; omega
      · intro h2; simp at h2; omega
      · intro _ _; rfl
  · intro z hz hz0
    rcases List.mem_cons.1 hz with rfl | hz
    · simp at hz0
    · have := a3 z hz
      obtain ⟨b1, b2⟩ := a13 z hz hz0
      refine ⟨b1, ?_⟩
      rcases b2 with ⟨b2, b3⟩ | ⟨b2, b3, b4⟩
      · exact Or.inl ⟨Or.inl b2, b3⟩
      · refine Or.inr ⟨?_, b3, b4⟩
        rintro (h | ⟨-, h, -⟩)
        · exact b2 h
        · cases h
  · grind
  · grind
  · grind

/-- The number of routes of a record after one route is removed. -/
theorem count_filter {m : List (Route × Nat)} (h : m.Pairwise (fun a b => a.1 ≠ b.1)) {r : Route} {i : Nat} (hr : (r, i) ∈ m) (j : Nat) :
    ((m.filter (fun z => z.1 != r)).filter (fun y => y.2 == j)).length = (m.filter (fun y => y.2 == j)).length - (if j = i then 1 else 0) := by
  induction m with
  | nil => cases hr
  | cons a m ih =>
    rw [List.pairwise_cons] at h
    rcases List.mem_cons.1 hr with rfl | hr
    · have : m.filter (fun z => z.1 != r) = m := List.filter_eq_self.2 (fun a ha => by simpa using (h.1 a ha).symm)
      rw [List.filter_cons, if_neg (by simp), this]
      by_cases hj : j = i
      · subst hj; simp
      · rw [if_neg hj, List.filter_cons, if_neg (by simpa using Ne.symm hj)]; simp
    · have hne : a.1 ≠ r := h.1 _ hr
      rw [List.filter_cons, if_pos (by simpa using hne)]
      simp only [List.filter_cons]
      split
      · have hpos : j = i → 0 < (m.filter (fun y => y.2 == j)).length := by
          rintro rfl; exact List.length_pos_of_mem (List.mem_filter.2 ⟨hr, by simp⟩)
        simp only [List.length_cons, ih h.2 hr]
        split
        · next hji => have := hpos hji; omega
        · rfl
      · exact ih h.2 hr

/-- One of several routes of a prefix is removed. -/
theorem inv_remove_more {s : St} {l : List (Route × Option Name)} (h : Inv s l) {x : Rec} (hx : x ∈ s.recs) {r : Route} (hr : (r, x.id) ∈ s.map) (hn : x.n > 1) :
    Inv (set { s with map := s.map.filter (fun z => z.1 != r) } { x with n := x.n - 1 }) (l.filter (fun z => z.1 != r)) := by
  have hm : ∀ z, z ∈ (set { s with map := s.map.filter (fun z => z.1 != r) } { x with n := x.n - 1 }).recs ↔ z = { x with n := x.n - 1 } ∨ (z ∈ s.recs ∧ z.id ≠ x.id) := by
    intro z; rw [mem_set]
    constructor
    · rintro (⟨w, -, -, rfl⟩ | h); exact Or.inl rfl; exact Or.inr h
    · rintro (rfl | h); exact Or.inl ⟨x, hx, rfl, rfl⟩; exact Or.inr h
  generalize hs' : set { s with map := s.map.filter (fun z => z.1 != r) } { x with n := x.n - 1 } = s' at *
  have e1 : s'.map = s.map.filter (fun z => z.1 != r) := by rw [← hs']; rfl
  have e2 : s'.flight = s.flight := by rw [← hs']; rfl
  have e3 : s'.next = s.next := by rw [← hs']; rfl
  have e4 : s'.out = s.out := by rw [← hs']; rfl
  have e5 : s'.avail = s.avail := by rw [← hs']; rfl
  have e6 : ∀ op id, Inflight s' op id ↔ Inflight s op id := fun _ _ => by unfold Inflight; rw [e2]
  obtain ⟨a1, a2, a3, a4, a5, a6, a7, a8, a9, a10, a11, a12, a13, a14, a15, a16⟩ := h
  have hl : ∀ z ∈ s.recs, ∃ z' ∈ s'.recs, z'.id = z.id ∧ z'.pfx = z.pfx ∧ (z'.n ≠ 0 ↔ z.n ≠ 0) := by
    intro z hz
    by_cases hzx : z.id = x.id
    · cases a1 z hz x hx hzx
      exact ⟨_, (hm _).2 (Or.inl rfl), rfl, rfl, by simp; omega⟩
    · exact ⟨z, (hm z).2 (Or.inr ⟨hz, hzx⟩), rfl, rfl, Iff.rfl⟩
  clear hs'
  constructor <;> (try simp only [e1, e2, e3, e4, e5, e6]) <;> (try assumption)
  · grind
  · grind
  · grind
  · exact List.Pairwise.filter _ a4
  · intro z hz
    rw [count_filter a4 hr]
    rcases (hm z).1 hz with rfl | ⟨hz, hne⟩
    · simp [a5 x hx]
    · rw [a5 z hz, if_neg hne]; rfl
  · intro y hy
    obtain ⟨hy, hyr⟩ := List.mem_filter.1 hy
    obtain ⟨z, hz, h1, h2⟩ := a6 y hy
    obtain ⟨z', hz', h3, h4, -⟩ := hl z hz
    exact ⟨z', hz', h3.trans h1, List.mem_filter.2 ⟨h4 ▸ h2, hyr⟩⟩
  · intro r' p hrp
    obtain ⟨hrp, hne⟩ := List.mem_filter.1 hrp
    obtain ⟨z, hz, h1, h2⟩ := a7 r' p hrp
    obtain ⟨z', hz', h3, h4, -⟩ := hl z hz
    exact ⟨z', hz', h4.trans h1, List.mem_filter.2 ⟨h3 ▸ h2, hne⟩⟩
  · exact List.Pairwise.filter _ a8
  · intro c hc
    obtain ⟨z, hz, h1, h2, h3⟩ := a11 c hc
    obtain ⟨z', hz', h4, h5, h6⟩ := hl z hz
    exact ⟨z', hz', h4.trans h1, h5.trans h2, h3.trans h6.symm⟩
  · grind
  · intro z hz hz0
    rcases (hm z).1 hz with rfl | ⟨hz, hne⟩
    · simp at hz0; omega
    · exact a13 z hz hz0
  · grind
  · grind
  · grind

theorem mem_del {s : St} {id : Nat} {y : Rec} : y ∈ (del s id).recs ↔ y ∈ s.recs ∧ y.id ≠ id := by
  unfold del; simp

/-- The last route of a prefix is removed while the destination is not available; or a withdrawal succeeds. -/
theorem inv_del {s s' : St} {l l' : List (Route × Option Name)} (h : Inv s l) {x : Rec} (hx : x ∈ s.recs)
    (hm : ∀ z, z ∈ s'.recs ↔ z ∈ s.recs ∧ z.id ≠ x.id) (e1 : s'.map = s.map.filter (fun y => y.2 != x.id))
    (hc : ∀ c, c ∈ s'.flight ↔ c ∈ s.flight ∧ c.target ≠ x.id) (hs : s'.flight.Pairwise (fun a b => a.serial ≠ b.serial)) (e3 : s'.next = s.next) (e5 : s'.avail = s.avail)
    (hl : ∀ r p, (r, some p) ∈ l' ↔ (r, some p) ∈ l ∧ p ≠ x.pfx) (hk : l'.Pairwise (fun a b => a.1 ≠ b.1))
    (e4 : ∀ p, p ≠ x.pfx → status p s'.out = status p s.out) (e7 : s.avail = true → status x.pfx s'.out = some false) : Inv s' l' := by
  obtain ⟨a1, a2, a3, a4, a5, a6, a7, a8, a9, a10, a11, a12, a13, a14, a15, a16⟩ := h
  have hf : ∀ op id, id ≠ x.id → (Inflight s' op id ↔ Inflight s op id) := by
    intro op id hne
    unfold Inflight
    constructor
    · rintro ⟨c, h, h1, h2⟩; exact ⟨c, ((hc c).1 h).1, h1, h2⟩
    · rintro ⟨c, h, h1, h2⟩; exact ⟨c, (hc c).2 ⟨h, fun h3 => hne (h2.symm.trans h3)⟩, h1, h2⟩
  have hp : ∀ z ∈ s.recs, z.id ≠ x.id → z.pfx ≠ x.pfx := fun z hz hne h => hne (by rw [a2 z hz x hx h])
  have hp' : ∀ z ∈ s.recs, z.pfx ≠ x.pfx → z.id ≠ x.id := fun z hz hne h => hne (by rw [a1 z hz x hx h])
  constructor <;> (try simp only [e1, e3, e5]) <;> (try assumption)
  · grind
  · grind
  · grind
  · exact List.Pairwise.filter _ a4
  · intro z hz
    obtain ⟨hz, hne⟩ := (hm z).1 hz
    rw [← a5 z hz, List.filter_filter]
    congr 1
    apply List.filter_congr
    intro y _
    by_cases hy : y.2 = z.id
    · simp [hy, hne]
    · simp [hy]
  · intro y hy
    obtain ⟨hy, hyx⟩ := List.mem_filter.1 hy
    obtain ⟨z, hz, h1, h2⟩ := a6 y hy
    have hne : z.id ≠ x.id := by rw [h1]; simpa using hyx
    exact ⟨z, (hm z).2 ⟨hz, hne⟩, h1, (hl _ _).2 ⟨h2, hp z hz hne⟩⟩
  · intro r' p hrp
    obtain ⟨hrp, hne⟩ := (hl _ _).1 hrp
    obtain ⟨z, hz, h1, h2⟩ := a7 r' p hrp
    have := hp' z hz (h1 ▸ hne)
    exact ⟨z, (hm z).2 ⟨hz, this⟩, h1, List.mem_filter.2 ⟨h2, by simpa using this⟩⟩
  · grind
  · grind
  · grind
  · intro z hz hz0
    obtain ⟨hz, hne⟩ := (hm z).1 hz
    rw [hf _ _ hne, e4 _ (hp z hz hne)]
    exact a13 z hz hz0
  · grind
  · intro z hz hz0 ha
    obtain ⟨hz, hne⟩ := (hm z).1 hz
    rw [hf _ _ hne, e4 _ (hp z hz hne)]
    exact a15 z hz hz0 ha
  · intro ha p hpp
    by_cases hpx : p = x.pfx
    · rw [hpx]; exact e7 ha
    · rw [e4 p hpx]
      refine a16 ha p (fun z hz hzp => ?_)
      exact hpp z ((hm z).2 ⟨hz, hp' z hz (hzp ▸ hpx)⟩) hzp

/-- The last route of a prefix is removed while the destination is available: the withdrawal is sent. -/
theorem inv_remove_last {s : St} {l : List (Route × Option Name)} (h : Inv s l) {x : Rec} (hx : x ∈ s.recs) {r : Route} (hr : (r, x.id) ∈ s.map) (hn : x.n = 1)
    (hav : s.avail = true) (hnf : ∀ c ∈ s.flight, c.target ≠ x.id) {y : Rec} (hy : y = { x with n := 0, delay := retryMin }) :
    Inv (send (set { s with map := s.map.filter (fun z => z.1 != r) } y) .wd y) (l.filter (fun z => z.1 != r)) := by
  have y1 : y.id = x.id := by rw [hy]
  have y2 : y.pfx = x.pfx := by rw [hy]
  have y3 : y.n = 0 := by rw [hy]
  have y4 : y.evt = x.evt := by rw [hy]
  clear hy
  have hm : ∀ z, z ∈ (send (set { s with map := s.map.filter (fun z => z.1 != r) } y) .wd y).recs ↔ z = y ∨ (z ∈ s.recs ∧ z.id ≠ x.id) := by
    intro z
    show z ∈ (set { s with map := s.map.filter (fun z => z.1 != r) } y).recs ↔ _
    rw [mem_set, y1]
    constructor
    · rintro (⟨w, -, -, rfl⟩ | h); exact Or.inl rfl; exact Or.inr h
    · rintro (rfl | h); exact Or.inl ⟨x, hx, rfl, rfl⟩; exact Or.inr h
  generalize hs' : send (set { s with map := s.map.filter (fun z => z.1 != r) } y) .wd y = s' at *
  have e1 : s'.map = s.map.filter (fun z => z.1 != r) := by rw [← hs']; rfl
  have e2 : s'.flight = s.flight ++ [⟨s.next, .wd, x.id, x.pfx⟩] := by rw [← hs', ← y1, ← y2]; rfl
  have e3 : s'.next = s.next + 1 := by rw [← hs']; rfl
  have e4 : ∀ p, status p s'.out = status p s.out := fun p => by rw [← hs']; exact status_append p _ _
  have e5 : s'.avail = s.avail := by rw [← hs']; rfl
  have hf : ∀ op id, Inflight s' op id ↔ Inflight s op id ∨ (op = .wd ∧ id = x.id) := by
    intro op id
    rw [← hs', inflight_send, y1]; rfl
  obtain ⟨a1, a2, a3, a4, a5, a6, a7, a8, a9, a10, a11, a12, a13, a14, a15, a16⟩ := h
  have hl : ∀ z ∈ s.recs, ∃ z' ∈ s'.recs, z'.id = z.id ∧ z'.pfx = z.pfx := by
    intro z hz
    by_cases hzx : z.id = x.id
    · cases a1 z hz x hx hzx
      exact ⟨_, (hm _).2 (Or.inl rfl), y1, y2⟩
    · exact ⟨z, (hm z).2 (Or.inr ⟨hz, hzx⟩), rfl, rfl⟩
  clear hs'
  constructor <;> (try simp only [e1, e3, e4, e5, hf]) <;> (try assumption)
  · grind
  · grind
  · grind
  · exact List.Pairwise.filter _ a4
  · intro z hz
    rw [count_filter a4 hr]
    rcases (hm z).1 hz with rfl | ⟨hz, hne⟩
    · simp [a5 x hx, y1, y3, hn]
    · rw [a5 z hz, if_neg hne]; rfl
  · intro y hy
    obtain ⟨hy, hyr⟩ := List.mem_filter.1 hy
    obtain ⟨z, hz, h1, h2⟩ := a6 y hy
    obtain ⟨z', hz', h3, h4⟩ := hl z hz
    exact ⟨z', hz', h3.trans h1, List.mem_filter.2 ⟨h4 ▸ h2, hyr⟩⟩
  · intro r' p hrp
    obtain ⟨hrp, hne⟩ := List.mem_filter.1 hrp
    obtain ⟨z, hz, h1, h2⟩ := a7 r' p hrp
    obtain ⟨z', hz', h3, h4⟩ := hl z hz
    exact ⟨z', hz', h4.trans h1, List.mem_filter.2 ⟨h3 ▸ h2, hne⟩⟩
  · exact List.Pairwise.filter _ a8
  · rw [e2, List.pairwise_append]; refine ⟨a9, by simp, ?_⟩; grind
  · rw [e2]; grind
  · rw [e2]
    intro c hc
    rcases List.mem_append.1 hc with hc | hc
    · obtain ⟨z, hz, h1, h2, h3⟩ := a11 c hc
      exact ⟨z, (hm z).2 (Or.inr ⟨hz, h1 ▸ hnf c hc⟩), h1, h2, h3⟩
    · rw [List.mem_singleton.1 hc]
      exact ⟨y, (hm y).2 (Or.inl rfl), y1, y2, by simp [y3]⟩
  · rw [e2]; grind
  · intro z hz hz0
    rcases (hm z).1 hz with rfl | ⟨hz, hne⟩
    · refine ⟨hav, Or.inl ⟨Or.inr ⟨trivial, y1⟩, ?_⟩⟩
      rw [y4]; exact a14 x hx (by omega)
    · have := a13 z hz hz0
      refine ⟨this.1, this.2.imp (fun h => ⟨Or.inl h.1, h.2⟩) (fun h => ⟨?_, h.2⟩)⟩
      rintro (h' | ⟨-, h'⟩)
      · exact h.1 h'
      · exact hne h'
  · grind
  · intro z hz hz0 ha
    rcases (hm z).1 hz with rfl | ⟨hz, hne⟩
    · exact absurd y3 hz0
    · exact (a15 z hz hz0 ha).imp Or.inl id
  · intro ha p hpp
    refine a16 ha p (fun z hz hzp => ?_)
    obtain ⟨z', hz', -, h4⟩ := hl z hz
    exact hpp z' hz' (h4.trans hzp)

theorem inv_down {s : St} {l : List (Route × Option Name)} (h : Inv s l) (ha : s.avail = false) (o : List Out) : Inv { s with out := o } l := by
  obtain ⟨a1, a2, a3, a4, a5, a6, a7, a8, a9, a10, a11, a12, a13, a14, a15, a16⟩ := h
  refine ⟨a1, a2, a3, a4, a5, a6, a7, a8, a9, a10, a11, a12, fun x hx hx0 => ?_, a14, fun x hx hx0 ha' => ?_, fun ha' => ?_⟩
  · have := (a13 x hx hx0).1; rw [ha] at this; cases this
  · have ha' : s.avail = true := ha'; rw [ha] at ha'; cases ha'
  · have ha' : s.avail = true := ha'; rw [ha] at ha'; cases ha'

theorem inv_up {s : St} {l : List (Route × Option Name)} (h : Inv { s with avail := false } l) (ha : s.avail = true) (hf : ∀ x ∈ s.recs, Inflight s .adv x.id)
    (hs : ∀ p, status p s.out = some false) : Inv s l := by
  obtain ⟨a1, a2, a3, a4, a5, a6, a7, a8, a9, a10, a11, a12, a13, a14, a15, a16⟩ := h
  exact ⟨a1, a2, a3, a4, a5, a6, a7, a8, a9, a10, a11, a12, (fun x hx hx0 => by have := (a13 x hx hx0).1; cases this), a14,
    fun x hx _ _ => Or.inl (hf x hx), fun _ p _ => hs p⟩

theorem advertiseAll_ok {l : List (Route × Option Name)} (ids : List Nat) : ∀ (s : St), Inv { s with avail := false } l → s.avail = true → (∀ p, status p s.out = some false) →
    (∀ i ∈ ids, ∃ x ∈ s.recs, x.id = i) →
    ∃ s', advertiseAll s ids = .ok s' ∧ Inv { s' with avail := false } l ∧ s'.avail = true ∧ s'.alive = s.alive ∧ (∀ p, status p s'.out = some false) ∧
      (∀ i, (∃ x ∈ s'.recs, x.id = i) ↔ ∃ x ∈ s.recs, x.id = i) ∧ (∀ i, Inflight s .adv i → Inflight s' .adv i) ∧ ∀ i ∈ ids, Inflight s' .adv i := by
  induction ids with
  | nil => intro s h ha hs _; exact ⟨s, rfl, h, ha, rfl, hs, fun _ => Iff.rfl, fun _ h => h, fun i hi => by cases hi⟩
  | cons i ids ih =>
    intro s h ha hs hids
    obtain ⟨x, hx, hxi⟩ := hids i List.mem_cons_self
    subst hxi
    have hn : x.n ≠ 0 := fun h0 => by have := (h.zero x hx h0).1; cases this
    have hg : get s x.id = some x := get_of h.ids hx
    let y : Rec := { x with delay := retryMin }
    have hy : y ∈ (set s y).recs := mem_set.2 (Or.inl ⟨x, hx, rfl, rfl⟩)
    have hset : Inv { set s y with avail := false } l :=
      inv_set_pos h hx rfl rfl rfl hn (h.pos x hx hn) (fun h => by cases h)
    have hg' : get (set s y) x.id = some y := get_of hset.ids hy
    have hadv : advertise (set s y) x.id = .ok (send (set s y) .adv y) := by
      unfold advertise
      rw [hg']
      have : (set s y).avail = true := ha
      simp only [if_neg (show y.n ≠ 0 from hn), this, Bool.true_eq_false, if_false]
    have h2 : Inv { send (set s y) .adv y with avail := false } l := inv_send hset hy hn
    have hrec : ∀ i, (∃ z ∈ (set s y).recs, z.id = i) ↔ ∃ z ∈ s.recs, z.id = i := by
      intro i
      constructor
      · rintro ⟨z, hz, rfl⟩
        rcases mem_set.1 hz with ⟨w, hw, h1, rfl⟩ | ⟨hz, -⟩
        · exact ⟨w, hw, h1⟩
        · exact ⟨z, hz, rfl⟩
      · rintro ⟨z, hz, rfl⟩
        by_cases hzx : z.id = x.id
        · exact ⟨y, hy, hzx.symm⟩
        · exact ⟨z, mem_set.2 (Or.inr ⟨hz, hzx⟩), rfl⟩
    obtain ⟨s', h3, h4, h5, h6, h7, h8, h9, h10⟩ := ih (send (set s y) .adv y) h2 ha
      (fun p => by unfold send; exact (status_append p _ _).trans (hs p)) (fun i hi => (hrec i).2 (hids i (List.mem_cons_of_mem _ hi)))
    refine ⟨s', ?_, h4, h5, h6, h7, fun i => (h8 i).trans (hrec i), fun i hi => h9 i (inflight_send.2 (Or.inl hi)), ?_⟩
    · unfold advertiseAll
      simp only [hg]
      show (advertise (set s y) x.id).bind _ = _
      rw [hadv]; exact h3
    · intro j hj
      rcases List.mem_cons.1 hj with rfl | hj
      · exact h9 _ (inflight_send.2 (Or.inr ⟨rfl, rfl⟩))
      · exact h10 j hj

theorem inv_available {s : St} {l : List (Route × Option Name)} (h : Inv s l) (ha : s.avail = false) :
    ∃ s', advertiseAll { s with avail := true, out := s.out ++ [.up] } (s.recs.map (·.id)) = .ok s' ∧ s'.alive = s.alive ∧ Inv s' l := by
  have e : ({ s with avail := false, out := s.out ++ [.up] } : St) = { s with out := s.out ++ [.up] } := by cases s; simp_all
  obtain ⟨s', h1, h2, h3, h4, h5, h6, -, h8⟩ := advertiseAll_ok (l := l) (s.recs.map (·.id)) { s with avail := true, out := s.out ++ [.up] }
    (by show Inv { s with avail := false, out := s.out ++ [.up] } l; rw [e]; exact inv_down h ha _) rfl
    (fun p => by rw [status_append]; rfl) (fun i hi => by obtain ⟨x, hx, rfl⟩ := List.mem_map.1 hi; exact ⟨x, hx, rfl⟩)
  refine ⟨s', h1, h4, inv_up h2 h3 (fun x hx => h8 _ ?_) h5⟩
  obtain ⟨z, hz, hzx⟩ := (h6 x.id).1 ⟨x, hx, rfl⟩
  exact List.mem_map.2 ⟨z, hz, hzx⟩

theorem inv_unavailable {s : St} {l : List (Route × Option Name)} (h : Inv s l) (hw : ∀ c ∈ s.flight, c.op ≠ .wd) (o : List Out) :
    Inv (stopAll { s with avail := false, out := o }) l := by
  obtain ⟨a1, a2, a3, a4, a5, a6, a7, a8, a9, a10, a11, a12, a13, a14, a15, a16⟩ := h
  have hm : ∀ z, z ∈ (stopAll { s with avail := false, out := o }).recs ↔ ∃ x ∈ s.recs, x.n ≠ 0 ∧ z = { x with evt := none } := by
    intro z
    unfold stopAll
    simp only [List.mem_map, List.mem_filter, decide_eq_true_eq]
    constructor
    · rintro ⟨x, ⟨h1, h2⟩, rfl⟩; exact ⟨x, h1, by omega, rfl⟩
    · rintro ⟨x, h1, h2, rfl⟩; exact ⟨x, ⟨h1, by omega⟩, rfl⟩
  have hk : ∀ x ∈ s.recs, ∀ y ∈ s.map, y.2 = x.id → x.n ≠ 0 := by
    intro x hx y hy hyx h0
    have := a5 x hx
    rw [h0, List.length_eq_zero_iff] at this
    have hmem : y ∈ s.map.filter (fun y => y.2 == x.id) := List.mem_filter.2 ⟨hy, by simpa using hyx⟩
    rw [this] at hmem; cases hmem
  generalize hs' : stopAll { s with avail := false, out := o } = s' at *
  have e1 : s'.map = s.map := by rw [← hs']; rfl
  have e2 : s'.flight = s.flight := by rw [← hs']; rfl
  have e3 : s'.next = s.next := by rw [← hs']; rfl
  have e5 : s'.avail = false := by rw [← hs']; rfl
  clear hs'
  have hop : ∀ op : Op, op ≠ .wd → op = .adv := by intro op; cases op <;> simp
  constructor <;> (try simp only [e1, e2, e3, e5]) <;> (try assumption)
  · intro x hx y hy
    obtain ⟨x0, hx0, -, rfl⟩ := (hm x).1 hx
    obtain ⟨y0, hy0, -, rfl⟩ := (hm y).1 hy
    intro he; rw [a1 x0 hx0 y0 hy0 he]
  · intro x hx y hy
    obtain ⟨x0, hx0, -, rfl⟩ := (hm x).1 hx
    obtain ⟨y0, hy0, -, rfl⟩ := (hm y).1 hy
    intro he; rw [a2 x0 hx0 y0 hy0 he]
  · grind
  · grind
  · intro y hy
    obtain ⟨z, hz, h1, h2⟩ := a6 y hy
    exact ⟨_, (hm _).2 ⟨z, hz, hk z hz y hy h1.symm, rfl⟩, h1, h2⟩
  · intro r p hrp
    obtain ⟨z, hz, h1, h2⟩ := a7 r p hrp
    exact ⟨_, (hm _).2 ⟨z, hz, hk z hz _ h2 rfl, rfl⟩, h1, h2⟩
  · intro c hc
    obtain ⟨z, hz, h1, h2, h3⟩ := a11 c hc
    have hz0 : z.n ≠ 0 := h3.1 (hop _ (hw c hc))
    exact ⟨_, (hm _).2 ⟨z, hz, hz0, rfl⟩, h1, h2, h3⟩
  · grind
  · intro x hx hx0
    obtain ⟨x0, -, h1, rfl⟩ := (hm x).1 hx
    exact absurd hx0 h1
  · grind
  · intro x _ _ h; cases h
  · intro h; cases h

/-- A command is answered, and the record is kept. -/
theorem inv_answered {s s' : St} {l : List (Route × Option Name)} (h : Inv s l) {c : Cmd} (hc : c ∈ s.flight) {x y : Rec} (hx : x ∈ s.recs) (hxc : x.id = c.target)
    (y1 : y.id = x.id) (y2 : y.pfx = x.pfx) (y3 : y.n = x.n) (hm : ∀ z, z ∈ s'.recs ↔ z = y ∨ (z ∈ s.recs ∧ z.id ≠ x.id))
    (hf : ∀ d, d ∈ s'.flight ↔ d ∈ s.flight ∧ d.serial ≠ c.serial) (hs : s'.flight.Pairwise (fun a b => a.serial ≠ b.serial))
    (e1 : s'.map = s.map) (e3 : s'.next = s.next) (e5 : s'.avail = s.avail) (e4 : ∀ p, p ≠ x.pfx → status p s'.out = status p s.out)
    (k1 : x.n ≠ 0 → (∃ d, y.evt = some (.adv, d)) ∧ (status x.pfx s'.out = some true ∨ status x.pfx s'.out = none))
    (k2 : x.n = 0 → (∃ d, y.evt = some (.wd, d)) ∧ status x.pfx s'.out = none) : Inv s' l := by
  obtain ⟨a1, a2, a3, a4, a5, a6, a7, a8, a9, a10, a11, a12, a13, a14, a15, a16⟩ := h
  have hl : ∀ z ∈ s.recs, ∃ z' ∈ s'.recs, z'.id = z.id ∧ z'.pfx = z.pfx ∧ z'.n = z.n := by
    intro z hz
    by_cases hzx : z.id = x.id
    · cases a1 z hz x hx hzx
      exact ⟨_, (hm _).2 (Or.inl rfl), y1, y2, y3⟩
    · exact ⟨z, (hm z).2 (Or.inr ⟨hz, hzx⟩), rfl, rfl, rfl⟩
  have hser : ∀ d ∈ s.flight, d.serial = c.serial → d = c := by
    intro d hd hdc
    exact Classical.byContradiction fun hne => by
      rcases List.mem_iff_getElem.1 hd with ⟨i, hi, rfl⟩
      rcases List.mem_iff_getElem.1 hc with ⟨j, hj, rfl⟩
      rw [List.pairwise_iff_getElem] at a9
      rcases Nat.lt_trichotomy i j with h | h | h
      · exact a9 i j hi hj h hdc
      · subst h; exact hne rfl
      · exact a9 j i hj hi h hdc.symm
  have hin : ∀ op id, id ≠ x.id → (Inflight s' op id ↔ Inflight s op id) := by
    intro op id hne
    unfold Inflight
    constructor
    · rintro ⟨d, h, h1, h2⟩; exact ⟨d, ((hf d).1 h).1, h1, h2⟩
    · rintro ⟨d, h, h1, h2⟩
      refine ⟨d, (hf d).2 ⟨h, fun h3 => ?_⟩, h1, h2⟩
      rw [hser d h h3] at h2
      exact hne (h2.symm.trans hxc.symm)
  have hp : ∀ z ∈ s.recs, z.id ≠ x.id → z.pfx ≠ x.pfx := fun z hz hne h => hne (by rw [a2 z hz x hx h])
  constructor <;> (try simp only [e1, e3, e5]) <;> (try assumption)
  · grind
  · grind
  · grind
  · grind
  · intro y hy
    obtain ⟨z, hz, h1, h2⟩ := a6 y hy
    obtain ⟨z', hz', h3, h4, -⟩ := hl z hz
    exact ⟨z', hz', h3.trans h1, h4 ▸ h2⟩
  · intro r' p hrp
    obtain ⟨z, hz, h1, h2⟩ := a7 r' p hrp
    obtain ⟨z', hz', h3, h4, -⟩ := hl z hz
    exact ⟨z', hz', h4.trans h1, h3 ▸ h2⟩
  · grind
  · intro d hd
    obtain ⟨z, hz, h1, h2, h3⟩ := a11 d ((hf d).1 hd).1
    obtain ⟨z', hz', h4, h5, h6⟩ := hl z hz
    exact ⟨z', hz', h4.trans h1, h5.trans h2, by rw [h6]; exact h3⟩
  · grind
  · intro z hz hz0
    rcases (hm z).1 hz with rfl | ⟨hz, hne⟩
    · have hx0 : x.n = 0 := y3 ▸ hz0
      refine ⟨(a13 x hx hx0).1, Or.inr ⟨?_, y2 ▸ (k2 hx0).2, (k2 hx0).1⟩⟩
      rintro ⟨d, hd, -, h2⟩
      obtain ⟨hd, hds⟩ := (hf d).1 hd
      exact hds (by rw [a12 x hx hx0 d hd c hc (h2.trans y1) hxc.symm])
    · rw [hin _ _ hne, e4 _ (hp z hz hne)]; exact a13 z hz hz0
  · intro z hz hz0
    rcases (hm z).1 hz with rfl | ⟨hz, hne⟩
    · obtain ⟨d, hd⟩ := (k1 (y3 ▸ hz0)).1
      rw [hd]; simp
    · exact a14 z hz hz0
  · intro z hz hz0 ha
    rcases (hm z).1 hz with rfl | ⟨hz, hne⟩
    · rw [y2]; exact Or.inr (k1 (y3 ▸ hz0))
    · rw [hin _ _ hne, e4 _ (hp z hz hne)]; exact a15 z hz hz0 ha
  · intro ha p hpp
    have : p ≠ x.pfx := fun h => hpp y ((hm y).2 (Or.inl rfl)) (y2.trans h.symm)
    rw [e4 p this]
    refine a16 ha p (fun z hz hzp => ?_)
    obtain ⟨z', hz', -, h4, -⟩ := hl z hz
    exact hpp z' hz' (h4.trans hzp)

/-- The retry of a withdrawal is sent. -/
theorem inv_retry {s : St} {l : List (Route × Option Name)} (h : Inv s l) {x : Rec} (hx : x ∈ s.recs) (hn : x.n = 0) (hnf : ¬ Inflight s .wd x.id) {y : Rec} (hy : y = { x with evt := none }) :
    Inv (send (set s y) .wd y) l := by
  have y1 : y.id = x.id := by rw [hy]
  have y2 : y.pfx = x.pfx := by rw [hy]
  have y3 : y.n = 0 := by rw [hy]; exact hn
  have y4 : y.evt = none := by rw [hy]
  clear hy
  have hm : ∀ z, z ∈ (send (set s y) .wd y).recs ↔ z = y ∨ (z ∈ s.recs ∧ z.id ≠ x.id) := by
    intro z
    show z ∈ (set s y).recs ↔ _
    rw [mem_set, y1]
    constructor
    · rintro (⟨w, -, -, rfl⟩ | h); exact Or.inl rfl; exact Or.inr h
    · rintro (rfl | h); exact Or.inl ⟨x, hx, rfl, rfl⟩; exact Or.inr h
  generalize hs' : send (set s y) .wd y = s' at *
  have e1 : s'.map = s.map := by rw [← hs']; rfl
  have e2 : s'.flight = s.flight ++ [⟨s.next, .wd, x.id, x.pfx⟩] := by rw [← hs', ← y1, ← y2]; rfl
  have e3 : s'.next = s.next + 1 := by rw [← hs']; rfl
  have e4 : ∀ p, status p s'.out = status p s.out := fun p => by rw [← hs']; exact status_append p _ _
  have e5 : s'.avail = s.avail := by rw [← hs']; rfl
  have hf : ∀ op id, Inflight s' op id ↔ Inflight s op id ∨ (op = .wd ∧ id = x.id) := by
    intro op id
    rw [← hs', inflight_send, y1]; rfl
  obtain ⟨a1, a2, a3, a4, a5, a6, a7, a8, a9, a10, a11, a12, a13, a14, a15, a16⟩ := h
  have hop : ∀ op : Op, op ≠ .adv → op = .wd := by intro op; cases op <;> simp
  have hnf' : ∀ c ∈ s.flight, c.target ≠ x.id := by
    intro c hc hcx
    obtain ⟨z, hz, h1, h2, h3⟩ := a11 c hc
    rw [a1 z hz x hx (h1.trans hcx)] at h3
    exact hnf ⟨c, hc, hop _ (fun h => h3.1 h hn), hcx⟩
  have hl : ∀ z ∈ s.recs, ∃ z' ∈ s'.recs, z'.id = z.id ∧ z'.pfx = z.pfx ∧ z'.n = z.n := by
    intro z hz
    by_cases hzx : z.id = x.id
    · cases a1 z hz x hx hzx
      exact ⟨_, (hm _).2 (Or.inl rfl), y1, y2, y3.trans hn.symm⟩
    · exact ⟨z, (hm z).2 (Or.inr ⟨hz, hzx⟩), rfl, rfl, rfl⟩
  clear hs'
  constructor <;> (try simp only [e1, e3, e4, e5, hf]) <;> (try assumption)
  · grind
  · grind
  · grind
  · grind
  · intro y hy
    obtain ⟨z, hz, h1, h2⟩ := a6 y hy
    obtain ⟨z', hz', h3, h4, -⟩ := hl z hz
    exact ⟨z', hz', h3.trans h1, h4 ▸ h2⟩
  · intro r' p hrp
    obtain ⟨z, hz, h1, h2⟩ := a7 r' p hrp
    obtain ⟨z', hz', h3, h4, -⟩ := hl z hz
    exact ⟨z', hz', h4.trans h1, h3 ▸ h2⟩
  · rw [e2, List.pairwise_append]; refine ⟨a9, by simp, ?_⟩; grind
  · rw [e2]; grind
  · rw [e2]
    intro c hc
    rcases List.mem_append.1 hc with hc | hc
    · obtain ⟨z, hz, h1, h2, h3⟩ := a11 c hc
      exact ⟨z, (hm z).2 (Or.inr ⟨hz, h1 ▸ hnf' c hc⟩), h1, h2, h3⟩
    · rw [List.mem_singleton.1 hc]
      exact ⟨y, (hm y).2 (Or.inl rfl), y1, y2, by simp [y3]⟩
  · rw [e2]; grind
  · intro z hz hz0
    rcases (hm z).1 hz with rfl | ⟨hz, hne⟩
    · refine ⟨(a13 x hx hn).1, Or.inl ⟨Or.inr ⟨trivial, y1⟩, ?_⟩⟩
      rw [y4]; simp
    · have := a13 z hz hz0
      refine ⟨this.1, this.2.imp (fun h => ⟨Or.inl h.1, h.2⟩) (fun h => ⟨?_, h.2⟩)⟩
      rintro (h' | ⟨-, h'⟩)
      · exact h.1 h'
      · exact hne h'
  · grind
  · intro z hz hz0 ha
    rcases (hm z).1 hz with rfl | ⟨hz, hne⟩
    · exact absurd y3 hz0
    · exact (a15 z hz hz0 ha).imp Or.inl id
  · intro ha p hpp
    refine a16 ha p (fun z hz hzp => ?_)
    obtain ⟨z', hz', -, h4, -⟩ := hl z hz
    exact hpp z' hz' (h4.trans hzp)

theorem set_set (s : St) (m : List (Route × Nat)) {y z : Rec} (h : z.id = y.id) : set { set s y with map := m } z = set { s with map := m } z := by
  unfold set
  simp only [List.map_map]
  congr 1
  apply List.map_congr_left
  intro w _
  simp only [Function.comp]
  by_cases hw : w.id = y.id
  · rw [if_pos hw, if_pos h.symm, if_pos (hw.trans h.symm)]
  · rw [if_neg hw]

/-- Before and after being switched off. -/
structure Ok (s : St) (l : List (Route × Option Name)) : Prop where
  on : s.alive = true → Inv s l
  off : s.alive = false → s.flight = [] ∧ s.recs = []

theorem find_key {m : List (Route × Nat)} (h : m.Pairwise (fun a b => a.1 ≠ b.1)) {r : Route} {y : Route × Nat} (hy : y ∈ m) (hr : y.1 = r) :
    ∀ z ∈ m, z.1 = r → z = y := by
  intro z hz hzr
  exact Classical.byContradiction fun hne => by
    rcases List.mem_iff_getElem.1 hz with ⟨i, hi, rfl⟩
    rcases List.mem_iff_getElem.1 hy with ⟨j, hj, rfl⟩
    rw [List.pairwise_iff_getElem] at h
    rcases Nat.lt_trichotomy i j with hij | hij | hij
    · exact h i j hi hj hij (hzr.trans hr.symm)
    · subst hij; exact hne rfl
    · exact h j i hj hi hij (hr.trans hzr.symm)

theorem add_ok {s : St} {l : List (Route × Option Name)} (h : Inv s l) (r : Route) (a : Action) (hr : ∀ y ∈ l, y.1 ≠ r)
    (hc : ∀ x ∈ s.recs, x.pfx = a.pfx → x.n ≠ 0) : ∃ s', addRoute s r a = .ok s' ∧ s'.alive = s.alive ∧ Inv s' ((r, some a.pfx) :: l) := by
  have hk : (s.map.any (fun y => y.1 == r)) = false := by
    rw [List.any_eq_false]
    intro y hy
    obtain ⟨z, -, -, hz⟩ := h.target y hy
    simpa using hr _ hz
  unfold addRoute emplace
  cases hf : s.recs.find? (fun x => x.pfx == a.pfx) with
  | some x =>
    have hx := List.mem_of_find?_eq_some hf
    have hxp : x.pfx = a.pfx := by simpa using List.find?_some hf
    have hn := hc x hx hxp
    simp only
    rw [if_neg (by show ¬ (s.map.any (fun y => y.1 == r)) = true; rw [hk]; simp), if_pos (show x.n > 0 by omega)]
    have hss := set_set s ((r, x.id) :: s.map) (y := { x with signer := a.signer }) (z := { x with signer := a.signer, n := x.n + 1 }) rfl
    refine ⟨_, congrArg Except.ok hss, rfl, ?_⟩
    rw [← hxp]
    exact inv_add_more h hx hn a.signer hr
  | none =>
    have hp : ∀ x ∈ s.recs, x.pfx ≠ a.pfx := by
      intro x hx; have := List.find?_eq_none.1 hf x hx; simpa using this
    simp only
    rw [if_neg (by rw [hk]; simp), if_neg (by omega)]
    let y : Rec := ⟨s.next, a.pfx, a.cost, a.signer, 1, retryMin, none⟩
    have hset : ∀ t : St, t.recs = ⟨s.next, a.pfx, a.cost, a.signer, 0, 0, none⟩ :: s.recs → (set t y).recs = y :: s.recs := by
      intro t ht
      unfold set
      rw [ht]
      simp only [List.map_cons]
      rw [if_pos rfl]
      congr 1
      conv => rhs; rw [← List.map_id s.recs]
      apply List.map_congr_left
      intro w hw
      have := h.fresh w hw
      rw [if_neg (by show w.id ≠ s.next; omega)]; rfl
    let t : St := { s with recs := ⟨s.next, a.pfx, a.cost, a.signer, 0, 0, none⟩ :: s.recs, next := s.next + 1, map := (r, s.next) :: s.map }
    show ∃ s', advertise (set t y) s.next = _ ∧ _
    have hg : get (set t y) s.next = some y := by
      unfold get; rw [hset t rfl]; simp [y]
    unfold advertise
    rw [hg]
    simp only [y, Nat.one_ne_zero, if_false]
    show ∃ s', (if s.avail = false then _ else _) = _ ∧ _
    by_cases ha : s.avail = false
    · rw [if_pos ha]
      refine ⟨_, rfl, rfl, inv_add_new h a hp hr (hset t rfl) rfl ?_ ?_ (fun _ => rfl) rfl⟩
      · rw [ha]; rfl
      · rw [ha]; rfl
    · rw [if_neg ha]
      have ha : s.avail = true := by simpa using ha
      refine ⟨_, rfl, rfl, inv_add_new h a hp hr (hset t rfl) rfl ?_ ?_ ?_ rfl⟩
      · rw [ha]; rfl
      · rw [ha]; rfl
      · intro p; unfold send; exact status_append p _ _

theorem remove_ok {s : St} {l : List (Route × Option Name)} (h : Inv s l) (r : Route)
    (hc : ∀ y ∈ s.map, y.1 = r → ∀ x ∈ s.recs, x.id = y.2 → x.n = 1 → ∀ c ∈ s.flight, c.target ≠ x.id) :
    ∃ s', removeRoute s r = .ok s' ∧ s'.alive = s.alive ∧ Inv s' (l.filter (fun x => x.1 != r)) := by
  unfold removeRoute
  cases hf : s.map.find? (fun y => y.1 == r) with
  | none =>
    have hno : ∀ y ∈ s.map, y.1 ≠ r := by
      intro y hy; have := List.find?_eq_none.1 hf y hy; simpa using this
    refine ⟨s, rfl, rfl, ?_⟩
    obtain ⟨a1, a2, a3, a4, a5, a6, a7, a8, a9, a10, a11, a12, a13, a14, a15, a16⟩ := h
    refine ⟨a1, a2, a3, a4, a5, fun y hy => ?_, fun r' p hrp => a7 r' p (List.mem_filter.1 hrp).1, List.Pairwise.filter _ a8, a9, a10, a11, a12, a13, a14, a15, a16⟩
    obtain ⟨z, hz, h1, h2⟩ := a6 y hy
    exact ⟨z, hz, h1, List.mem_filter.2 ⟨h2, by simpa using hno y hy⟩⟩
  | some y =>
    have hy := List.mem_of_find?_eq_some hf
    have hyr : y.1 = r := by simpa using List.find?_some hf
    obtain ⟨x, hx, hxy, hxl⟩ := h.target y hy
    have hrx : (r, x.id) ∈ s.map := by rw [← hyr, hxy]; exact hy
    simp only
    have hg : get { s with map := s.map.filter (fun z => z.1 != r) } y.2 = some x := by
      rw [← hxy]; exact get_of (s := { s with map := s.map.filter (fun z => z.1 != r) }) h.ids hx
    rw [hg]
    have hn0 : x.n ≠ 0 := by
      rw [← h.count x hx]
      exact Nat.ne_of_gt (List.length_pos_of_mem (List.mem_filter.2 ⟨hrx, by simp⟩))
    simp only [if_neg hn0]
    by_cases hn1 : x.n > 1
    · rw [if_pos hn1]
      exact ⟨_, rfl, rfl, inv_remove_more h hx hrx hn1⟩
    · rw [if_neg hn1]
      have hn : x.n = 1 := by omega
      have hnf := hc y hy hyr x hx hxy hn
      let z : Rec := { x with n := 0, delay := retryMin }
      let t : St := set { s with map := s.map.filter (fun z => z.1 != r) } z
      show ∃ s', withdraw t x.id = _ ∧ _
      have hids : ∀ a ∈ t.recs, ∀ b ∈ t.recs, a.id = b.id → a = b := by
        intro a ha b hb hab
        rcases mem_set.1 ha with ⟨_, _, _, rfl⟩ | ⟨ha, hax⟩ <;> rcases mem_set.1 hb with ⟨_, _, _, rfl⟩ | ⟨hb, hbx⟩
        · rfl
        · exact absurd hab.symm hbx
        · exact absurd hab hax
        · exact h.ids a ha b hb hab
      have hz : z ∈ t.recs := mem_set.2 (Or.inl ⟨x, hx, rfl, rfl⟩)
      have hg' : get t x.id = some z := get_of hids hz
      unfold withdraw
      rw [hg']
      simp only [z, ne_eq, not_true_eq_false, if_false]
      show ∃ s', (if s.avail = false then _ else _) = _ ∧ _
      by_cases ha : s.avail = false
      · rw [if_pos ha]
        have hone : ∀ w ∈ s.map, w.2 = x.id → w.1 = r := by
          intro w hw hwx
          have hlen := h.count x hx
          rw [hn] at hlen
          obtain ⟨u, hu⟩ := List.length_eq_one_iff.1 hlen
          have h1 : w ∈ s.map.filter (fun y => y.2 == x.id) := List.mem_filter.2 ⟨hw, by simpa using hwx⟩
          have h2 : (r, x.id) ∈ s.map.filter (fun y => y.2 == x.id) := List.mem_filter.2 ⟨hrx, by simp⟩
          rw [hu] at h1 h2
          rw [List.mem_singleton.1 h1, ← List.mem_singleton.1 h2]
        have hback : ∀ w ∈ s.map, w.1 = r → w.2 = x.id := by
          intro w hw hwr; have := find_key h.keys hrx rfl w hw hwr; rw [this]
        refine ⟨_, rfl, rfl, inv_del h hx (fun w => ?_) ?_ (fun c => ?_) ?_ rfl rfl (fun r' p => ?_) (List.Pairwise.filter _ h.rkeys) (fun _ _ => rfl) (fun h => by rw [ha] at h; cases h)⟩
        · rw [mem_del]
          constructor
          · rintro ⟨hw, hwx⟩
            rcases mem_set.1 hw with ⟨_, _, _, rfl⟩ | ⟨hw, -⟩
            · exact absurd rfl hwx
            · exact ⟨hw, hwx⟩
          · rintro ⟨hw, hwx⟩; exact ⟨mem_set.2 (Or.inr ⟨hw, hwx⟩), hwx⟩
        · show s.map.filter (fun z => z.1 != r) = _
          apply List.filter_congr
          intro w hw
          by_cases hwr : w.1 = r
          · simp [hwr, hback w hw hwr]
          · have : w.2 ≠ x.id := fun h => hwr (hone w hw h)
            rw [bne_iff_ne.2 hwr, bne_iff_ne.2 this]
        · show c ∈ s.flight ↔ _
          exact ⟨fun hc => ⟨hc, hnf c hc⟩, fun hc => hc.1⟩
        · exact h.serials
        · rw [List.mem_filter]
          constructor
          · rintro ⟨h1, h2⟩
            refine ⟨h1, ?_⟩
            rintro rfl
            obtain ⟨w, hw, h3, h4⟩ := h.back r' _ h1
            rw [h.pfxs w hw x hx h3] at h4
            simp at h2
            exact h2 (hone _ h4 rfl)
          · rintro ⟨h1, h2⟩
            refine ⟨h1, ?_⟩
            simp only [bne_iff_ne, ne_eq]
            rintro rfl
            obtain ⟨w, hw, h3, h4⟩ := h.back r' _ h1
            have := hback _ h4 rfl
            rw [h.ids w hw x hx this] at h3
            exact h2 h3.symm
      · rw [if_neg ha]
        exact ⟨_, rfl, rfl, inv_remove_last h hx hrx hn (by simpa using ha) hnf rfl⟩

theorem answer_ok {refresh : Nat} {s : St} {l : List (Route × Option Name)} (h : Inv s l) {c : Cmd} (hc : c ∈ s.flight) (ok : Bool) :
    ∃ s', answered refresh { s with flight := s.flight.filter (fun d => d.serial != c.serial), out := s.out ++ [.answered c.op c.pfx ok] } c ok = .ok s' ∧
      s'.alive = s.alive ∧ Inv s' l := by
  obtain ⟨x, hx, h1, h2, h3⟩ := h.flight c hc
  unfold answered
  have hg : get { s with flight := s.flight.filter (fun d => d.serial != c.serial), out := s.out ++ [.answered c.op c.pfx ok] } c.target = some x := by
    rw [← h1]; exact get_of (s := { s with flight := s.flight.filter (fun d => d.serial != c.serial), out := s.out ++ [.answered c.op c.pfx ok] }) h.ids hx
  rw [hg]
  simp only
  have hst : ∀ p, p ≠ x.pfx → status p (s.out ++ [.answered c.op c.pfx ok]) = status p s.out := by
    intro p hp
    rw [status_append]
    unfold statusAfter
    simp only
    rw [if_neg (by rw [← h2]; exact Ne.symm hp)]
  have hst' : status x.pfx (s.out ++ [.answered c.op c.pfx ok]) = if ok then some (c.op == .adv) else none := by
    rw [status_append]
    unfold statusAfter
    simp only
    rw [if_pos h2.symm]
  have keep : ∀ y : Rec, y.id = x.id → y.pfx = x.pfx → y.n = x.n →
      (x.n ≠ 0 → (∃ d, y.evt = some (.adv, d)) ∧ (status x.pfx (s.out ++ [.answered c.op c.pfx ok]) = some true ∨ status x.pfx (s.out ++ [.answered c.op c.pfx ok]) = none)) →
      (x.n = 0 → (∃ d, y.evt = some (.wd, d)) ∧ status x.pfx (s.out ++ [.answered c.op c.pfx ok]) = none) →
      Inv (set { s with flight := s.flight.filter (fun d => d.serial != c.serial), out := s.out ++ [.answered c.op c.pfx ok] } y) l := by
    intro y y1 y2 y3 k1 k2
    refine inv_answered h hc hx h1 y1 y2 y3 (fun z => ?_) (fun d => ?_) (List.Pairwise.filter _ h.serials) rfl rfl rfl hst k1 k2
    · rw [mem_set, y1]
      constructor
      · rintro (⟨w, -, -, rfl⟩ | h); exact Or.inl rfl; exact Or.inr h
      · rintro (rfl | h); exact Or.inl ⟨x, hx, rfl, rfl⟩; exact Or.inr h
    · show d ∈ s.flight.filter _ ↔ _
      simp
  cases hop : c.op with
  | adv =>
    have hn : x.n ≠ 0 := h3.1 hop
    cases ok with
    | true =>
      rw [hop] at keep hst'
      exact ⟨_, rfl, rfl, keep _ rfl rfl rfl (fun _ => ⟨⟨_, rfl⟩, Or.inl hst'⟩) (fun h0 => absurd h0 hn)⟩
    | false =>
      rw [hop] at keep hst'
      exact ⟨_, rfl, rfl, keep _ rfl rfl rfl (fun _ => ⟨⟨_, rfl⟩, Or.inr hst'⟩) (fun h0 => absurd h0 hn)⟩
  | wd =>
    have hn : x.n = 0 := Classical.byContradiction fun h0 => by rw [h3.2 h0] at hop; cases hop
    cases ok with
    | false =>
      rw [hop] at keep hst'
      exact ⟨_, rfl, rfl, keep _ rfl rfl rfl (fun h0 => absurd hn h0) (fun _ => ⟨⟨_, rfl⟩, hst'⟩)⟩
    | true =>
      rw [hop] at hst hst'
      have hmap : ∀ y ∈ s.map, y.2 ≠ x.id := by
        intro y hy hyx
        have := h.count x hx
        rw [hn, List.length_eq_zero_iff] at this
        have hmem : y ∈ s.map.filter (fun y => y.2 == x.id) := List.mem_filter.2 ⟨hy, by simpa using hyx⟩
        rw [this] at hmem; cases hmem
      refine ⟨_, rfl, rfl, inv_del h hx (fun z => mem_del) ?_ (fun d => ?_) (List.Pairwise.filter _ h.serials) rfl rfl (fun r p => ?_) h.rkeys hst (fun _ => hst')⟩
      · show s.map = _
        rw [List.filter_eq_self.2]
        intro y hy; simpa using hmap y hy
      · show d ∈ s.flight.filter _ ↔ _
        rw [List.mem_filter]
        simp only [bne_iff_ne, ne_eq]
        constructor
        · rintro ⟨hd, hds⟩
          exact ⟨hd, fun hdx => hds (by rw [h.one x hx hn d hd c hc hdx h1.symm])⟩
        · rintro ⟨hd, hdx⟩
          refine ⟨hd, fun hds => ?_⟩
          have : d = c := Classical.byContradiction fun hne => by
            have a9 := h.serials
            rcases List.mem_iff_getElem.1 hd with ⟨i, hi, rfl⟩
            rcases List.mem_iff_getElem.1 hc with ⟨j, hj, rfl⟩
            rw [List.pairwise_iff_getElem] at a9
            rcases Nat.lt_trichotomy i j with h | h | h
            · exact a9 i j hi hj h hds
            · subst h; exact hne rfl
            · exact a9 j i hj hi h hds.symm
          rw [this] at hdx
          exact hdx h1.symm
      · refine ⟨fun hp => ⟨hp, ?_⟩, fun hp => hp.1⟩
        rintro rfl
        obtain ⟨w, hw, h4, h5⟩ := h.back r _ hp
        rw [h.pfxs w hw x hx h4] at h5
        exact hmap _ h5 rfl

theorem timer_ok {s : St} {l : List (Route × Option Name)} (h : Inv s l) {x : Rec} (hx : x ∈ s.recs) {op : Op} {d : Nat} (he : x.evt = some (op, d))
    (hc : x.n = 0 → ∀ d, x.evt ≠ some (.adv, d)) :
    ∃ s', (match op with | .adv => advertise (set s { x with evt := none }) x.id | .wd => withdraw (set s { x with evt := none }) x.id) = .ok s' ∧
      s'.alive = s.alive ∧ Inv s' l := by
  let y : Rec := { x with evt := none }
  have hids : ∀ a ∈ (set s y).recs, ∀ b ∈ (set s y).recs, a.id = b.id → a = b := by
    intro a ha b hb hab
    rcases mem_set.1 ha with ⟨_, _, _, rfl⟩ | ⟨ha, hax⟩ <;> rcases mem_set.1 hb with ⟨_, _, _, rfl⟩ | ⟨hb, hbx⟩
    · rfl
    · exact absurd hab.symm hbx
    · exact absurd hab hax
    · exact h.ids a ha b hb hab
  have hy : y ∈ (set s y).recs := mem_set.2 (Or.inl ⟨x, hx, rfl, rfl⟩)
  have hg : get (set s y) x.id = some y := get_of hids hy
  cases op with
  | adv =>
    have hn : x.n ≠ 0 := fun h0 => hc h0 d he
    simp only
    show ∃ s', advertise (set s y) x.id = _ ∧ _
    unfold advertise
    rw [hg]
    simp only [if_neg (show y.n ≠ 0 from hn)]
    show ∃ s', (if s.avail = false then _ else _) = _ ∧ _
    by_cases ha : s.avail = false
    · rw [if_pos ha]
      exact ⟨_, rfl, rfl, inv_set_pos h hx rfl rfl rfl hn (by simp [y]) (fun h' => by rw [ha] at h'; cases h')⟩
    · rw [if_neg ha]
      refine ⟨_, rfl, rfl, ?_⟩
      show Inv (set (send s .adv x) y) l
      exact inv_set_pos (inv_send h hx hn) hx rfl rfl rfl hn (by simp [y]) (fun _ => Or.inl (inflight_send.2 (Or.inr ⟨rfl, rfl⟩)))
  | wd =>
    have hn : x.n = 0 := Classical.byContradiction fun h0 => h.pos x hx h0 d he
    obtain ⟨ha, hz⟩ := h.zero x hx hn
    have hnf : ¬ Inflight s .wd x.id := by
      rcases hz with ⟨-, hz⟩ | ⟨hz, -⟩
      · exact absurd he (hz d)
      · exact hz
    simp only
    show ∃ s', withdraw (set s y) x.id = _ ∧ _
    unfold withdraw
    rw [hg]
    have ha' : (set s y).avail = true := ha
    simp only [show y.n = 0 from hn, ha', Bool.true_eq_false, ne_eq, not_true_eq_false, if_false]
    exact ⟨_, rfl, rfl, inv_retry h hx hn hnf rfl⟩

theorem step_ok {refresh : Nat} {s : St} {l : List (Route × Option Name)} (h : Ok s l) (e : Ev) (hc : Clean s e) (hr : ribOk l e) :
    ∃ s', step refresh s e = .ok s' ∧ Ok s' (ribAfter l e) := by
  have mk : ∀ {s' : St} {l' : List (Route × Option Name)}, s'.alive = s.alive → s.alive = true → Inv s' l' → Ok s' l' :=
    fun h1 h2 h3 => ⟨fun _ => h3, fun h4 => by rw [h1, h2] at h4; cases h4⟩
  by_cases ha : s.alive = true
  · have hi := h.on ha
    cases e with
    | add r a =>
      cases a with
      | none =>
        refine ⟨s, rfl, mk rfl ha ?_⟩
        obtain ⟨a1, a2, a3, a4, a5, a6, a7, a8, a9, a10, a11, a12, a13, a14, a15, a16⟩ := hi
        refine ⟨a1, a2, a3, a4, a5, fun y hy => ?_, fun r' p hrp => ?_, ?_, a9, a10, a11, a12, a13, a14, a15, a16⟩
        · obtain ⟨z, hz, h1, h2⟩ := a6 y hy; exact ⟨z, hz, h1, List.mem_cons_of_mem _ h2⟩
        · rcases List.mem_cons.1 hrp with hrp | hrp
          · cases hrp
          · exact a7 r' p hrp
        · exact List.pairwise_cons.2 ⟨fun y hy => (hr y hy).symm, a8⟩
      | some a =>
        obtain ⟨s', h1, h2, h3⟩ := add_ok hi r a hr hc
        exact ⟨s', by simp only [step, ha, if_true]; exact h1, mk h2 ha h3⟩
    | remove r =>
      obtain ⟨s', h1, h2, h3⟩ := remove_ok hi r hc
      exact ⟨s', by simp only [step, ha, if_true]; exact h1, mk h2 ha h3⟩
    | available =>
      simp only [step]
      by_cases hv : s.avail = false
      · rw [if_pos ⟨ha, hv⟩]
        obtain ⟨s', h1, h2, h3⟩ := inv_available hi hv
        exact ⟨s', h1, mk h2 ha h3⟩
      · rw [if_neg (fun hh => hv hh.2)]; exact ⟨s, rfl, h⟩
    | unavailable =>
      simp only [step]
      by_cases hv : s.avail = true
      · rw [if_pos ⟨ha, hv⟩]
        exact ⟨_, rfl, mk rfl ha (inv_unavailable hi hc _)⟩
      · rw [if_neg (fun hh => hv hh.2)]; exact ⟨s, rfl, h⟩
    | answer k ok =>
      simp only [step]
      cases hf : s.flight.find? (fun c => c.serial == k) with
      | none => exact ⟨s, rfl, h⟩
      | some c =>
        have hcm := List.mem_of_find?_eq_some hf
        have hck : c.serial = k := by simpa using List.find?_some hf
        subst hck
        simp only
        rw [if_neg (by rw [ha]; simp)]
        obtain ⟨s', h1, h2, h3⟩ := answer_ok (refresh := refresh) hi hcm ok
        exact ⟨s', h1, mk h2 ha h3⟩
    | timer id =>
      simp only [step]
      cases hg : get s id with
      | none => exact ⟨s, rfl, h⟩
      | some x =>
        obtain ⟨hx, rfl⟩ := get_some hg
        cases he : x.evt with
        | none => simp only [he]; exact ⟨s, rfl, h⟩
        | some od =>
          obtain ⟨op, d⟩ := od
          obtain ⟨s', h1, h2, h3⟩ := timer_ok hi hx he (hc x hx rfl)
          refine ⟨s', ?_, mk h2 ha h3⟩
          cases op <;> simp only [he] <;> exact h1
    | destroy => exact ⟨_, rfl, fun h => (by cases h), fun _ => ⟨hc, rfl⟩⟩
  · have ha : s.alive = false := by simpa using ha
    obtain ⟨hf, hrc⟩ := h.off ha
    have same : ∀ l', Ok s l' := fun l' => ⟨(fun h => by rw [ha] at h; cases h), fun _ => ⟨hf, hrc⟩⟩
    cases e with
    | add r a => cases a <;> exact ⟨s, by simp [step, ha], same _⟩
    | remove r => exact ⟨s, by simp [step, ha], same _⟩
    | available => exact ⟨s, by simp [step, ha], same _⟩
    | unavailable => exact ⟨s, by simp [step, ha], same _⟩
    | answer k ok => exact ⟨s, by simp [step, hf], same _⟩
    | timer id => exact ⟨s, by simp [step, get, hrc], same _⟩
    | destroy => exact ⟨_, rfl, fun h => (by cases h), fun _ => ⟨hf, rfl⟩⟩

theorem run_ok {refresh : Nat} (evs : List Ev) : ∀ (s : St) (l : List (Route × Option Name)), Ok s l → CleanRun refresh s l evs →
    ∃ s', run refresh s evs = .ok s' ∧ Ok s' (evs.foldl ribAfter l) := by
  induction evs with
  | nil => intro s l h _; exact ⟨s, rfl, h⟩
  | cons e es ih =>
    intro s l h hc
    obtain ⟨s1, h1, h2⟩ := step_ok (refresh := refresh) h e hc.1 hc.2.1
    obtain ⟨s', h3, h4⟩ := ih s1 _ h2 (hc.2.2 s1 h1)
    exact ⟨s', by simp only [run, h1]; exact h3, h4⟩

theorem ok_init : Ok {} [] := by
  refine ⟨fun _ => ?_, fun h => by cases h⟩
  constructor <;> simp

end Verif.Readv
