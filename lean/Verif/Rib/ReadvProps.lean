import Verif.Rib.ReadvInv
import Verif.Name.Lemmas

/-! Properties C60, C61 and C87: which prefixes are readvertised. -/
namespace Verif.Readv

/-! ### C60: the prefix that is advertised -/

/-- The prefixes an identity allows one to announce: its name, a last component `nrd` left out. -/
def announces (identity p : Name) : Prop := (identity = p ++ [generic "nrd"]) ∨ (identity = p ∧ ∀ q, identity ≠ q ++ [generic "nrd"])

theorem idPrefix_announces (i : Name) : announces i (idPrefix i) := by
  unfold idPrefix announces ignored
  by_cases h : i.getLast? = some (generic "nrd")
  · rw [if_pos h]
    left
    obtain ⟨ys, rfl⟩ := List.getLast?_eq_some_iff.1 h
    simp
  · rw [if_neg h]
    refine Or.inr ⟨rfl, fun q hq => h ?_⟩
    rw [hq]; simp

theorem announces_eq {i p : Name} (h : announces i p) : idPrefix i = p := by
  unfold idPrefix ignored
  rcases h with rfl | ⟨rfl, h⟩
  · rw [if_pos (by simp)]; simp
  · rw [if_neg]
    intro hl
    obtain ⟨ys, hy⟩ := List.getLast?_eq_some_iff.1 hl
    exact h ys hy

theorem pick_spec (is : List Name) : ∀ (best : Name) (sg : Option Name),
    (∀ i ∈ is, idPrefix i <+: best → (pick best sg is).1.length ≤ (idPrefix i).length) ∧ (pick best sg is).1 <+: best ∧
    ((∃ i ∈ is, (pick best sg is).2 = some i ∧ (pick best sg is).1 = idPrefix i) ∨ (pick best sg is = (best, sg) ∧ ∀ i ∈ is, ¬ idPrefix i <+: best)) := by
  induction is with
  | nil => intro best sg; exact ⟨fun i h => (by cases h), List.prefix_refl _, Or.inr ⟨rfl, fun i h => by cases h⟩⟩
  | cons j js ih =>
    intro best sg
    unfold pick
    by_cases hj : Name.isPrefixOf (idPrefix j) best = true
    · rw [if_pos hj]
      have hj := Name.isPrefixOf_iff.1 hj
      obtain ⟨h1, h2, h3⟩ := ih (idPrefix j) (some j)
      refine ⟨fun i hi hib => ?_, h2.trans hj, Or.inl ?_⟩
      · rcases List.mem_cons.1 hi with rfl | hi
        · exact h2.length_le
        · rcases Nat.le_total (idPrefix i).length (idPrefix j).length with hl | hl
          · exact h1 i hi (List.prefix_of_prefix_length_le hib hj hl)
          · exact Nat.le_trans h2.length_le hl
      · rcases h3 with ⟨i, hi, h4, h5⟩ | ⟨h4, -⟩
        · exact ⟨i, List.mem_cons_of_mem _ hi, h4, h5⟩
        · exact ⟨j, List.mem_cons_self, by rw [h4], by rw [h4]⟩
    · rw [if_neg hj]
      have hj : ¬ idPrefix j <+: best := fun h => hj (Name.isPrefixOf_iff.2 h)
      obtain ⟨h1, h2, h3⟩ := ih best sg
      refine ⟨fun i hi hib => ?_, h2, ?_⟩
      · rcases List.mem_cons.1 hi with rfl | hi
        · exact absurd hib hj
        · exact h1 i hi hib
      · rcases h3 with ⟨i, hi, h⟩ | ⟨h4, h5⟩
        · exact Or.inl ⟨i, List.mem_cons_of_mem _ hi, h⟩
        · refine Or.inr ⟨h4, fun i hi => ?_⟩
          rcases List.mem_cons.1 hi with rfl | hi
          · exact hj
          · exact h5 i hi

/-- **C60**: with the host-to-gateway policy a route is advertised iff its name is not under `/localhost`, is not `/localhop/nfd`, and
an identity announces a prefix of it. -/
theorem C60_when (identities : List Name) (name : Name) (cost : Nat) :
    (hostToGateway identities name cost).isSome = true ↔
      ¬ [generic "localhost"] <+: name ∧ name ≠ [generic "localhop", generic "nfd"] ∧ ∃ i ∈ identities, ∃ p, announces i p ∧ p <+: name := by
  unfold hostToGateway
  by_cases h : Name.isPrefixOf localhost name = true ∨ name = localhopTop
  · rw [if_pos h]
    rcases h with h | h
    · exact ⟨(fun h => by cases h), fun h' => absurd (Name.isPrefixOf_iff.1 h) h'.1⟩
    · exact ⟨(fun h => by cases h), fun h' => absurd h h'.2.1⟩
  · rw [if_neg h]
    obtain ⟨h1, h2, h3⟩ := pick_spec identities name none
    have hl : ¬ [generic "localhost"] <+: name := fun h' => h (Or.inl (Name.isPrefixOf_iff.2 h'))
    have hn : name ≠ [generic "localhop", generic "nfd"] := fun h' => h (Or.inr h')
    rcases h3 with ⟨i, hi, h4, h5⟩ | ⟨h4, h5⟩
    · have : pick name none identities = ((pick name none identities).1, some i) := by rw [← h4]
      rw [this]
      simp only [Option.isSome_some, true_iff]
      exact ⟨hl, hn, i, hi, _, idPrefix_announces i, by rw [← h5]; exact h2⟩
    · rw [h4]
      simp only [Option.isSome_none, Bool.false_eq_true, false_iff]
      rintro ⟨-, -, i, hi, p, hp, hpn⟩
      exact h5 i hi (by rw [announces_eq hp]; exact hpn)

/-- **C60**: it is advertised with its cost, as the shortest prefix of its name that an identity announces, signed by such an
identity. -/
theorem C60_what (identities : List Name) (name : Name) (cost : Nat) (a : Action) (h : hostToGateway identities name cost = some a) :
    a.cost = cost ∧ a.pfx <+: name ∧ (∃ i ∈ identities, a.signer = some i ∧ announces i a.pfx) ∧
    ∀ i ∈ identities, ∀ p, announces i p → p <+: name → a.pfx.length ≤ p.length := by
  unfold hostToGateway at h
  split at h
  · cases h
  · obtain ⟨h1, h2, h3⟩ := pick_spec identities name none
    split at h
    · cases h
    · rename_i p i hp
      cases h
      rw [hp] at h1 h2 h3
      refine ⟨rfl, h2, ?_, fun j hj q hq hqn => ?_⟩
      · rcases h3 with ⟨j, hj, h4, h5⟩ | ⟨h4, -⟩
        · cases h4; exact ⟨i, hj, rfl, by simp only at h5 ⊢; rw [h5]; exact idPrefix_announces i⟩
        · cases h4
      · have := h1 j hj (by rw [announces_eq hq]; exact hqn)
        rwa [announces_eq hq] at this

/-- **C60**: with the client-to-NLSR policy exactly the routes registered by clients are advertised, as they are. -/
theorem C60_nlsr (name : Name) (cost origin : Nat) (a : Action) :
    clientToNlsr name cost origin = some a ↔ origin = 65 ∧ a = ⟨name, cost, none⟩ := by
  unfold clientToNlsr originClient
  split
  · constructor
    · intro h; cases h; exact ⟨by assumption, rfl⟩
    · rintro ⟨-, rfl⟩; rfl
  · constructor
    · intro h; cases h
    · rintro ⟨h, -⟩; contradiction

def nm (s : List String) : Name := s.map generic

/-- Two identities match: the shorter is used, its `nrd` left out. -/
example : hostToGateway [nm ["a", "b", "nrd"], nm ["a", "nrd"], nm ["x"]] (nm ["a", "b", "c"]) 7 = some ⟨nm ["a"], 7, some (nm ["a", "nrd"])⟩ := by decide +kernel
example : hostToGateway [nm ["x"]] (nm ["a", "b", "c"]) 7 = none := by decide +kernel
example : hostToGateway [[]] (nm ["localhost", "b"]) 7 = none ∧ hostToGateway [[]] (nm ["localhop", "nfd"]) 7 = none := by decide +kernel
/-- Other names under `/localhop` are advertised. -/
example : hostToGateway [[]] (nm ["localhop", "x"]) 7 = some ⟨[], 7, some []⟩ := by decide +kernel
example : clientToNlsr (nm ["a"]) 3 65 = some ⟨nm ["a"], 3, none⟩ ∧ clientToNlsr (nm ["a"]) 3 0 = none := by decide +kernel

/-! ### C61: the prefixes advertised are those of the routes -/

/-- A command about `p` is unanswered. -/
def Pending (s : St) (op : Op) (p : Name) : Prop := ∃ c ∈ s.flight, c.op = op ∧ c.pfx = p

/-- A command about `p` is scheduled to be sent (again). -/
def Scheduled (s : St) (op : Op) (p : Name) : Prop := ∃ x ∈ s.recs, x.pfx = p ∧ ∃ d, x.evt = some (op, d)

theorem wanted_iff {s : St} {l : List (Route × Option Name)} (h : Inv s l) (p : Name) : Wanted l p ↔ ∃ x ∈ s.recs, x.pfx = p ∧ x.n ≠ 0 := by
  constructor
  · rintro ⟨⟨r, q⟩, hr, rfl⟩
    obtain ⟨x, hx, h1, h2⟩ := h.back r p hr
    refine ⟨x, hx, h1, ?_⟩
    rw [← h.count x hx]
    exact Nat.ne_of_gt (List.length_pos_of_mem (List.mem_filter.2 ⟨h2, by simp⟩))
  · rintro ⟨x, hx, rfl, hn⟩
    rw [← h.count x hx] at hn
    obtain ⟨y, hy⟩ := List.exists_mem_of_ne_nil (s.map.filter (fun y => y.2 == x.id)) (fun h0 => hn (by rw [h0]; rfl))
    obtain ⟨hy, hyx⟩ := List.mem_filter.1 hy
    obtain ⟨z, hz, h1, h2⟩ := h.target y hy
    refine ⟨_, h2, ?_⟩
    rw [h.ids z hz x hx (h1.trans (by simpa using hyx))]

theorem pending_iff {s : St} {l : List (Route × Option Name)} (h : Inv s l) {x : Rec} (hx : x ∈ s.recs) (op : Op) :
    Pending s op x.pfx ↔ Inflight s op x.id := by
  constructor
  · rintro ⟨c, hc, h1, h2⟩
    obtain ⟨y, hy, h3, h4, -⟩ := h.flight c hc
    refine ⟨c, hc, h1, ?_⟩
    rw [← h3, h.pfxs y hy x hx (h4.trans h2)]
  · rintro ⟨c, hc, h1, h2⟩
    obtain ⟨y, hy, h3, h4, -⟩ := h.flight c hc
    refine ⟨c, hc, h1, ?_⟩
    rw [← h4, h.ids y hy x hx (h3.trans h2)]

/-- **C61**, the part that holds: in a clean history nothing goes wrong, and whenever the destination is available,
* a prefix of some route is being advertised: the command is on its way, or it was not refused for good and will be sent again;
* any other prefix is being withdrawn or has been: a withdrawal is on its way, or failed and will be sent again, or the destination
  does not have the prefix;
* a prefix about which no command is unanswered, the last of them having succeeded, is at the destination iff some route has it.

Missing: the histories excluded by `Clean`, in which the code uses records it has erased or fails an assertion (below). -/
theorem C61_partial (refresh : Nat) (evs : List Ev) (h : CleanRun refresh {} [] evs) :
    ∃ s, run refresh {} evs = .ok s ∧ (s.alive = true → s.avail = true → ∀ p,
      (Wanted (evs.foldl ribAfter []) p → (Pending s .adv p ∨ (Scheduled s .adv p ∧ status p s.out ≠ some false)) ∧ ¬ Pending s .wd p ∧ ¬ Scheduled s .wd p) ∧
      (¬ Wanted (evs.foldl ribAfter []) p → (Pending s .wd p ∨ (Scheduled s .wd p ∧ status p s.out = none) ∨ status p s.out = some false) ∧ ¬ Pending s .adv p) ∧
      ((∀ op, ¬ Pending s op p) → status p s.out ≠ none → (status p s.out = some true ↔ Wanted (evs.foldl ribAfter []) p))) := by
  obtain ⟨s, h1, h2⟩ := run_ok evs {} [] ok_init h
  refine ⟨s, h1, fun ha hv p => ?_⟩
  have hi := h2.on ha
  generalize evs.foldl ribAfter [] = l at hi
  have key1 : Wanted l p → (Pending s .adv p ∨ (Scheduled s .adv p ∧ (status p s.out = some true ∨ status p s.out = none))) ∧ ¬ Pending s .wd p ∧ ¬ Scheduled s .wd p := by
    intro hw
    obtain ⟨x, hx, rfl, hn⟩ := (wanted_iff hi p).1 hw
    refine ⟨?_, ?_, ?_⟩
    · rcases hi.live x hx hn hv with h | ⟨h, h'⟩
      · exact Or.inl ((pending_iff hi hx _).2 h)
      · exact Or.inr ⟨⟨x, hx, rfl, h⟩, h'⟩
    · rintro ⟨c, hc, h1, h2⟩
      obtain ⟨y, hy, h3, h4, h5⟩ := hi.flight c hc
      rw [hi.pfxs y hy x hx (h4.trans h2)] at h5
      have := h5.2 hn
      rw [h1] at this; cases this
    · rintro ⟨y, hy, h1, d, h2⟩
      rw [hi.pfxs y hy x hx h1] at h2
      exact hi.pos x hx hn d h2
  have key2 : ¬ Wanted l p → (Pending s .wd p ∨ (Scheduled s .wd p ∧ status p s.out = none) ∨ status p s.out = some false) ∧ ¬ Pending s .adv p := by
    intro hw
    refine ⟨?_, ?_⟩
    · by_cases hex : ∃ x ∈ s.recs, x.pfx = p
      · obtain ⟨x, hx, rfl⟩ := hex
        have hn : x.n = 0 := Classical.byContradiction fun hn => hw ((wanted_iff hi _).2 ⟨x, hx, rfl, hn⟩)
        rcases (hi.zero x hx hn).2 with ⟨h, -⟩ | ⟨-, h, h'⟩
        · exact Or.inl ((pending_iff hi hx _).2 h)
        · exact Or.inr (Or.inl ⟨⟨x, hx, rfl, h'⟩, h⟩)
      · exact Or.inr (Or.inr (hi.gone hv p (fun x hx hxp => hex ⟨x, hx, hxp⟩)))
    · rintro ⟨c, hc, h1, rfl⟩
      obtain ⟨y, hy, h3, h4, h5⟩ := hi.flight c hc
      exact hw ((wanted_iff hi _).2 ⟨y, hy, h4, h5.1 h1⟩)
  refine ⟨fun hw => ⟨?_, (key1 hw).2⟩, key2, fun hp hs => ⟨fun ht => ?_, fun hw => ?_⟩⟩
  · rcases (key1 hw).1 with h | ⟨h, h' | h'⟩
    · exact Or.inl h
    · exact Or.inr ⟨h, by rw [h']; simp⟩
    · exact Or.inr ⟨h, by rw [h']; simp⟩
  · refine Classical.byContradiction fun hw => ?_
    rcases (key2 hw).1 with h | ⟨-, h⟩ | h
    · exact hp _ h
    · exact hs h
    · rw [ht] at h; cases h
  · rcases (key1 hw).1 with h | ⟨-, h | h⟩
    · exact absurd h (hp _)
    · exact h
    · exact absurd h hs

/-- **C61**: adding a route sends a command only if its prefix is not being advertised already, and then one. -/
theorem C61_add (refresh : Nat) (evs : List Ev) (h : CleanRun refresh {} [] evs) (s : St) (hs : run refresh {} evs = .ok s) (ha : s.alive = true)
    (r : Route) (a : Action) (hr : ribOk (evs.foldl ribAfter []) (.add r (some a))) (hc : Clean s (.add r (some a))) :
    ∃ s', step refresh s (.add r (some a)) = .ok s' ∧
      (Wanted (evs.foldl ribAfter []) a.pfx → s'.out = s.out) ∧
      (¬ Wanted (evs.foldl ribAfter []) a.pfx → s'.out = s.out ++ (if s.avail then [.sent .adv a.pfx a.cost a.signer] else [])) := by
  obtain ⟨t, h1, h2⟩ := run_ok evs {} [] ok_init h
  rw [hs] at h1; cases h1
  have hi := h2.on ha
  obtain ⟨s', h3, -⟩ := step_ok (refresh := refresh) h2 _ hc hr
  refine ⟨s', h3, ?_⟩
  simp only [step, ha, if_true] at h3
  generalize evs.foldl ribAfter [] = l at hi
  unfold addRoute emplace at h3
  cases hf : s.recs.find? (fun x => x.pfx == a.pfx) with
  | some x =>
    rw [hf] at h3
    have hx := List.mem_of_find?_eq_some hf
    have hxp : x.pfx = a.pfx := by simpa using List.find?_some hf
    have hn : x.n ≠ 0 := hc x hx hxp
    simp only at h3
    split at h3
    · cases h3
    · rw [if_pos (show x.n > 0 by omega)] at h3
      cases h3
      exact ⟨fun _ => rfl, fun hw => absurd ((wanted_iff hi _).2 ⟨x, hx, hxp, hn⟩) hw⟩
  | none =>
    rw [hf] at h3
    have hp : ∀ x ∈ s.recs, x.pfx ≠ a.pfx := by
      intro x hx; have := List.find?_eq_none.1 hf x hx; simpa using this
    simp only at h3
    split at h3
    · cases h3
    · rw [if_neg (by omega)] at h3
      refine ⟨fun hw => ?_, fun _ => ?_⟩
      · obtain ⟨x, hx, h4, -⟩ := (wanted_iff hi _).1 hw
        exact absurd h4 (hp x hx)
      · have hg : get (set { s with recs := ⟨s.next, a.pfx, a.cost, a.signer, 0, 0, none⟩ :: s.recs, next := s.next + 1, map := (r, s.next) :: s.map }
            ⟨s.next, a.pfx, a.cost, a.signer, 1, retryMin, none⟩) s.next = some ⟨s.next, a.pfx, a.cost, a.signer, 1, retryMin, none⟩ := by
          unfold get set; simp
        unfold advertise at h3
        rw [hg] at h3
        simp only [Nat.one_ne_zero, if_false] at h3
        cases hv : s.avail with
        | false => rw [if_pos (by exact hv)] at h3; cases h3; simp [set]
        | true =>
          rw [if_neg (by show ¬ s.avail = false; rw [hv]; simp)] at h3; cases h3; simp [send, set]

/-- **C61**: removing a route sends a command only if no other route has its prefix, and then one. -/
theorem C61_remove (refresh : Nat) (evs : List Ev) (h : CleanRun refresh {} [] evs) (s : St) (hs : run refresh {} evs = .ok s) (ha : s.alive = true)
    (r : Route) (p : Name) (hr : (r, some p) ∈ evs.foldl ribAfter []) (hc : Clean s (.remove r)) :
    ∃ s', step refresh s (.remove r) = .ok s' ∧
      (Wanted (ribAfter (evs.foldl ribAfter []) (.remove r)) p → s'.out = s.out) ∧
      (¬ Wanted (ribAfter (evs.foldl ribAfter []) (.remove r)) p → ∃ c i, s'.out = s.out ++ (if s.avail then [.sent .wd p c i] else [])) := by
  obtain ⟨t, h1, h2⟩ := run_ok evs {} [] ok_init h
  rw [hs] at h1; cases h1
  have hi := h2.on ha
  obtain ⟨s', h3, h3'⟩ := step_ok (refresh := refresh) h2 (.remove r) hc ⟨_, hr, rfl⟩
  refine ⟨s', h3, ?_⟩
  simp only [step, ha, if_true] at h3
  generalize evs.foldl ribAfter [] = l at *
  obtain ⟨x, hx, hxp, hm⟩ := hi.back r p hr
  have hw : Wanted (ribAfter l (.remove r)) p ↔ x.n > 1 := by
    have hcount := hi.count x hx
    have hsub : ∀ y ∈ s.map.filter (fun y => y.2 == x.id), y ∈ s.map ∧ y.2 = x.id := by
      intro y hy; obtain ⟨h1, h2⟩ := List.mem_filter.1 hy; exact ⟨h1, by simpa using h2⟩
    have hmem : (r, x.id) ∈ s.map.filter (fun y => y.2 == x.id) := List.mem_filter.2 ⟨hm, by simp⟩
    have hpw : (s.map.filter (fun y => y.2 == x.id)).Pairwise (fun a b => a.1 ≠ b.1) := List.Pairwise.filter _ hi.keys
    constructor
    · rintro ⟨⟨r', q⟩, hr', hq⟩
      simp only at hq; subst hq
      obtain ⟨hr1, hr2⟩ := List.mem_filter.1 hr'
      have hne : r' ≠ r := by simpa using hr2
      obtain ⟨y, hy, hyp, hym⟩ := hi.back r' p hr1
      rw [hi.pfxs y hy x hx (hyp.trans hxp.symm)] at hym
      have hmem' : (r', x.id) ∈ s.map.filter (fun y => y.2 == x.id) := List.mem_filter.2 ⟨hym, by simp⟩
      rw [← hcount]
      generalize s.map.filter (fun y => y.2 == x.id) = m at hmem hmem'
      match m with
      | [] => cases hmem
      | [z] => rw [List.mem_singleton] at hmem hmem'; rw [← hmem] at hmem'; cases hmem'; exact absurd rfl hne
      | _ :: _ :: _ => simp
    · intro hn
      rw [← hcount] at hn
      have : ∃ y ∈ s.map.filter (fun y => y.2 == x.id), y.1 ≠ r := by
        generalize s.map.filter (fun y => y.2 == x.id) = m at hn hpw
        match m with
        | [] => simp at hn
        | [z] => simp at hn
        | y :: z :: w =>
          have := List.rel_of_pairwise_cons hpw (List.mem_cons_self (a := z) (l := w))
          by_cases hy : y.1 = r
          · exact ⟨z, by simp, fun hz => this (hy.trans hz.symm)⟩
          · exact ⟨y, by simp, hy⟩
      obtain ⟨y, hy, hyr⟩ := this
      obtain ⟨hy1, hy2⟩ := hsub y hy
      obtain ⟨z, hz, h5, h6⟩ := hi.target y hy1
      rw [hi.ids z hz x hx (h5.trans hy2), hxp] at h6
      exact ⟨_, List.mem_filter.2 ⟨h6, by simpa using hyr⟩, rfl⟩
  rw [hw]
  unfold removeRoute at h3
  cases hf : s.map.find? (fun y => y.1 == r) with
  | none => have := List.find?_eq_none.1 hf _ hm; simp at this
  | some y =>
    have hy := List.mem_of_find?_eq_some hf
    have hyr : y.1 = r := by simpa using List.find?_some hf
    have hye := find_key hi.keys hm rfl y hy hyr
    rw [hf] at h3
    simp only [hye] at h3
    have hg : get { s with map := s.map.filter (fun z => z.1 != r) } x.id = some x := get_of (s := { s with map := s.map.filter (fun z => z.1 != r) }) hi.ids hx
    rw [hg] at h3
    simp only at h3
    split at h3
    · cases h3
    · split at h3
      · cases h3; exact ⟨fun _ => rfl, fun h => absurd (by assumption) h⟩
      · refine ⟨fun h => absurd h (by assumption), fun _ => ?_⟩
        have hids : ∀ a ∈ (set { s with map := s.map.filter (fun z => z.1 != r) } { x with n := 0, delay := retryMin }).recs,
            ∀ b ∈ (set { s with map := s.map.filter (fun z => z.1 != r) } { x with n := 0, delay := retryMin }).recs, a.id = b.id → a = b := by
          intro a ha b hb hab
          rcases mem_set.1 ha with ⟨_, _, _, rfl⟩ | ⟨ha, hax⟩ <;> rcases mem_set.1 hb with ⟨_, _, _, rfl⟩ | ⟨hb, hbx⟩
          · rfl
          · exact absurd hab.symm hbx
          · exact absurd hab hax
          · exact hi.ids a ha b hb hab
        have hg' := get_of hids (mem_set.2 (Or.inl ⟨x, hx, rfl, rfl⟩))
        unfold withdraw at h3
        simp only at hg' h3
        rw [hg'] at h3
        simp only [ne_eq, not_true_eq_false, if_false] at h3
        rw [← hxp]
        cases hv : s.avail with
        | false => rw [if_pos (by exact hv)] at h3; cases h3; exact ⟨0, none, by simp [set, del]⟩
        | true => rw [if_neg (by show ¬ s.avail = false; rw [hv]; simp)] at h3; cases h3; exact ⟨x.cost, x.signer, by simp [send, set]⟩

/-- Every scheduled retry or refresh. -/
structure Delays (refresh : Nat) (s : St) : Prop where
  delay : ∀ x ∈ s.recs, retryMin ≤ x.delay ∧ x.delay ≤ retryMax
  evt : ∀ x ∈ s.recs, ∀ op d, x.evt = some (op, d) → (op = .adv ∧ d = refresh) ∨ (2 * retryMin ≤ d ∧ d ≤ retryMax)

theorem delays_set {refresh : Nat} {s : St} (h : Delays refresh s) {x : Rec} (h1 : retryMin ≤ x.delay ∧ x.delay ≤ retryMax)
    (h2 : ∀ op d, x.evt = some (op, d) → (op = .adv ∧ d = refresh) ∨ (2 * retryMin ≤ d ∧ d ≤ retryMax)) : Delays refresh (set s x) := by
  constructor
  · intro y hy
    rcases mem_set.1 hy with ⟨_, _, _, rfl⟩ | ⟨hy, -⟩
    · exact h1
    · exact h.delay y hy
  · intro y hy
    rcases mem_set.1 hy with ⟨_, _, _, rfl⟩ | ⟨hy, -⟩
    · exact h2
    · exact h.evt y hy

theorem delays_sub {refresh : Nat} {s t : St} (h : Delays refresh s) (hs : ∀ x ∈ t.recs, x ∈ s.recs) : Delays refresh t :=
  ⟨fun x hx => h.delay x (hs x hx), fun x hx => h.evt x (hs x hx)⟩

theorem delays_advertise {refresh : Nat} {s s' : St} {id : Nat} (h : Delays refresh s) (hs : advertise s id = .ok s') : Delays refresh s' := by
  unfold advertise at hs
  repeat' split at hs
  all_goals first | (cases hs; done) | (cases hs; exact delays_sub h (fun _ hx => hx))

theorem delays_withdraw {refresh : Nat} {s s' : St} {id : Nat} (h : Delays refresh s) (hs : withdraw s id = .ok s') : Delays refresh s' := by
  unfold withdraw at hs
  repeat' split at hs
  all_goals first | (cases hs; done) | (cases hs; exact delays_sub h (fun _ hx => (mem_del.1 hx).1)) | (cases hs; exact delays_sub h (fun _ hx => hx))

theorem delays_advertiseAll {refresh : Nat} (ids : List Nat) : ∀ {s s' : St}, Delays refresh s → advertiseAll s ids = .ok s' → Delays refresh s' := by
  induction ids with
  | nil => intro s s' h hs; cases hs; exact h
  | cons id ids ih =>
    intro s s' h hs
    unfold advertiseAll at hs
    split at hs
    · cases hs
    · rename_i x hg
      have hx := (get_some hg).1
      cases ha : advertise (set s { x with delay := retryMin }) id with
      | error => rw [ha] at hs; cases hs
      | ok t =>
        rw [ha] at hs
        refine ih (delays_advertise ?_ ha) hs
        refine delays_set h ?_ ?_
        · exact ⟨Nat.le_refl retryMin, (by decide : retryMin ≤ retryMax)⟩
        · exact h.evt x hx

theorem delays_step {refresh : Nat} {s s' : St} (h : Delays refresh s) (e : Ev) (hs : step refresh s e = .ok s') : Delays refresh s' := by
  cases e with
  | add r a =>
    cases a with
    | none => cases hs; exact h
    | some a =>
      simp only [step] at hs
      split at hs
      · unfold addRoute emplace at hs
        cases hf : s.recs.find? (fun x => x.pfx == a.pfx) with
        | some x =>
          rw [hf] at hs
          have hx := List.mem_of_find?_eq_some hf
          have h0 : Delays refresh (set s { x with signer := a.signer }) := by
            refine delays_set h ?_ ?_
            · exact h.delay x hx
            · exact h.evt x hx
          simp only at hs
          split at hs
          · cases hs
          · split at hs
            · cases hs
              refine delays_set (delays_sub (t := { set s { x with signer := a.signer } with map := (r, x.id) :: s.map }) h0 (fun _ hx => hx)) ?_ ?_
              · exact h.delay x hx
              · exact h.evt x hx
            · refine delays_advertise ?_ hs
              refine delays_set (delays_sub (t := { set s { x with signer := a.signer } with map := (r, x.id) :: s.map }) h0 (fun _ hx => hx)) ?_ ?_
              · exact ⟨Nat.le_refl retryMin, (by decide : retryMin ≤ retryMax)⟩
              · exact h.evt x hx
        | none =>
          rw [hf] at hs
          simp only at hs
          split at hs
          · cases hs
          · rw [if_neg (by omega)] at hs
            refine delays_advertise ?_ hs
            constructor
            · intro y hy
              rcases mem_set.1 hy with ⟨_, _, _, rfl⟩ | ⟨hy, hne⟩
              · exact ⟨Nat.le_refl retryMin, (by decide : retryMin ≤ retryMax)⟩
              · rcases List.mem_cons.1 hy with rfl | hy
                · exact absurd rfl hne
                · exact h.delay y hy
            · intro y hy
              rcases mem_set.1 hy with ⟨_, _, _, rfl⟩ | ⟨hy, hne⟩
              · intro op d hd; cases hd
              · rcases List.mem_cons.1 hy with rfl | hy
                · exact absurd rfl hne
                · exact h.evt y hy
      · cases hs; exact h
  | remove r =>
    simp only [step] at hs
    split at hs
    · unfold removeRoute at hs
      split at hs
      · cases hs; exact h
      · simp only at hs
        split at hs
        · cases hs
        · rename_i x hg
          have hx := (get_some hg).1
          have h0 : Delays refresh { s with map := s.map.filter (fun z => z.1 != r) } := delays_sub h (fun _ hx => hx)
          split at hs
          · cases hs
          · split at hs
            · cases hs
              refine delays_set h0 ?_ ?_
              · exact h.delay x hx
              · exact h.evt x hx
            · refine delays_withdraw ?_ hs
              refine delays_set h0 ?_ ?_
              · exact ⟨Nat.le_refl retryMin, (by decide : retryMin ≤ retryMax)⟩
              · exact h.evt x hx
    · cases hs; exact h
  | available =>
    simp only [step] at hs
    split at hs
    · refine delays_advertiseAll _ ?_ hs
      exact delays_sub h (fun _ hx => hx)
    · cases hs; exact h
  | unavailable =>
    simp only [step] at hs
    split at hs
    · cases hs
      constructor
      · intro x hx
        obtain ⟨y, hy, rfl⟩ := List.mem_map.1 hx
        exact h.delay y (List.mem_filter.1 hy).1
      · intro x hx op d hd
        obtain ⟨y, hy, rfl⟩ := List.mem_map.1 hx
        cases hd
    · cases hs; exact h
  | answer k ok =>
    simp only [step] at hs
    split at hs
    · cases hs; exact h
    · rename_i c hf
      split at hs
      · cases hs
      · unfold answered at hs
        split at hs
        · cases hs
        · rename_i x hg
          have hx : x ∈ s.recs := (get_some hg).1
          have hd := h.delay x hx
          have h0 : Delays refresh { s with flight := s.flight.filter (fun c => c.serial != k), out := s.out ++ [.answered c.op c.pfx ok] } := delays_sub h (fun _ hx => hx)
          have h1 : 2 * retryMin ≤ min retryMax (x.delay * 2) ∧ min retryMax (x.delay * 2) ≤ retryMax := by
            have : 2 * retryMin ≤ retryMax := by decide
            omega
          split at hs
          · cases hs
            refine delays_set h0 ?_ ?_
            · exact ⟨Nat.le_refl retryMin, (by decide : retryMin ≤ retryMax)⟩
            · intro op d he; cases he; exact Or.inl ⟨rfl, rfl⟩
          · cases hs
            refine delays_set h0 ?_ ?_
            · exact ⟨by show retryMin ≤ min retryMax (x.delay * 2); omega, h1.2⟩
            · intro op d he; cases he; exact Or.inr h1
          · cases hs; exact delays_sub h0 (fun _ hx => (mem_del.1 hx).1)
          · cases hs
            refine delays_set h0 ?_ ?_
            · exact ⟨by show retryMin ≤ min retryMax (x.delay * 2); omega, h1.2⟩
            · intro op d he; cases he; exact Or.inr h1
  | timer id =>
    simp only [step] at hs
    split at hs
    · cases hs; exact h
    · rename_i x hg
      have hx := (get_some hg).1
      have h0 : Delays refresh (set s { x with evt := none }) := by
        refine delays_set h ?_ ?_
        · exact h.delay x hx
        · intro op d he; cases he
      split at hs
      · cases hs; exact h
      · exact delays_advertise h0 hs
      · exact delays_withdraw h0 hs
  | destroy => cases hs; exact ⟨fun x hx => (by cases hx), fun x hx => by cases hx⟩

/-- **C61**: in every history, clean or not, an advertised prefix is refreshed after the interval of the policy, and a failed command is
sent again after between 100 seconds and one hour. -/
theorem C61_delays (refresh : Nat) (evs : List Ev) : ∀ (s : St), run refresh {} evs = .ok s →
    ∀ x ∈ s.recs, ∀ op d, x.evt = some (op, d) → (op = .adv ∧ d = refresh) ∨ (100000 ≤ d ∧ d ≤ 3600000) := by
  have : ∀ (evs : List Ev) (s s' : St), Delays refresh s → run refresh s evs = .ok s' → Delays refresh s' := by
    intro evs
    induction evs with
    | nil => intro s s' h hs; cases hs; exact h
    | cons e es ih =>
      intro s s' h hs
      simp only [run] at hs
      cases he : step refresh s e with
      | error => rw [he] at hs; cases hs
      | ok t => rw [he] at hs; exact ih t s' (delays_step h e he) hs
  intro s hs x hx op d he
  exact (this evs {} s ⟨fun x hx => (by cases hx), fun x hx => by cases hx⟩ hs).evt x hx op d he

/-- **C61**: after the answer to a command about a prefix that is still known, a success means a refresh after the interval of the
policy (or nothing more to do, for a withdrawal), and a failure doubles the time to wait, up to one hour. -/
theorem C61_backoff (refresh : Nat) (s : St) (ha : s.alive = true) (c : Cmd) (ok : Bool) (hc : s.flight.find? (fun d => d.serial == c.serial) = some c)
    (x : Rec) (hx : get s c.target = some x) :
    ∃ s', step refresh s (.answer c.serial ok) = .ok s' ∧ s'.out = s.out ++ [.answered c.op c.pfx ok] ∧
      (ok = true → c.op = .adv → get s' c.target = some { x with delay := 50000, evt := some (.adv, refresh) }) ∧
      (ok = true → c.op = .wd → get s' c.target = none) ∧
      (ok = false → get s' c.target = some { x with delay := min 3600000 (2 * x.delay), evt := some (c.op, min 3600000 (2 * x.delay)) }) := by
  have hid := (get_some hx).2
  have hset : ∀ (t : St) (y : Rec), t.recs = s.recs → y.id = x.id → get (set t y) c.target = some y := by
    intro t y ht hy
    unfold get at hx ⊢
    unfold set
    rw [ht]
    simp only
    clear hc ht
    generalize s.recs = l at hx
    induction l with
    | nil => cases hx
    | cons z zs ih =>
      simp only [List.map_cons]
      by_cases hz : z.id = c.target
      · rw [if_pos (by rw [hz, hy, hid])]
        rw [List.find?_cons_of_pos]
        simp [hy, hid]
      · rw [List.find?_cons_of_neg (by simpa using hz)] at hx
        rw [if_neg (by rw [hy, hid]; exact hz), List.find?_cons_of_neg (by simpa using hz)]
        exact ih hx
  simp only [step]
  rw [hc]
  simp only
  rw [if_neg (by rw [ha]; simp)]
  unfold answered
  have hg : get { s with flight := s.flight.filter (fun d => d.serial != c.serial), out := s.out ++ [.answered c.op c.pfx ok] } c.target = some x := hx
  rw [hg]
  simp only
  have he : min retryMax (x.delay * 2) = min 3600000 (2 * x.delay) := by rw [Nat.mul_comm]; rfl
  cases hop : c.op <;> cases ok
  · refine ⟨_, rfl, rfl, (fun h => by cases h), (fun h => by cases h), fun _ => ?_⟩
    rw [← he]
    exact hset { s with flight := s.flight.filter (fun d => d.serial != c.serial), out := s.out ++ [.answered .adv c.pfx false] } _ rfl rfl
  · refine ⟨_, rfl, rfl, (fun _ _ => ?_), (fun _ h => by cases h), (fun h => by cases h)⟩
    exact hset { s with flight := s.flight.filter (fun d => d.serial != c.serial), out := s.out ++ [.answered .adv c.pfx true] } _ rfl rfl
  · refine ⟨_, rfl, rfl, (fun h => by cases h), (fun h => by cases h), fun _ => ?_⟩
    rw [← he]
    exact hset { s with flight := s.flight.filter (fun d => d.serial != c.serial), out := s.out ++ [.answered .wd c.pfx false] } _ rfl rfl
  · refine ⟨_, rfl, rfl, (fun _ h => by cases h), (fun _ _ => ?_), (fun h => by cases h)⟩
    unfold get del
    rw [List.find?_eq_none]
    intro y hy
    have := (List.mem_filter.1 hy).2
    simp only [beq_iff_eq]
    rw [← hid]
    simpa using this

/-! ### Examples and counterexamples -/

def a0 : Action := ⟨nm ["a"], 5, none⟩
def r1 : Route := ⟨nm ["a", "1"], 300, 65⟩
def r2 : Route := ⟨nm ["a", "2"], 301, 65⟩

/-- A clean history: two routes share a prefix, the advertisement fails once, both are removed, the withdrawal succeeds. -/
def good : List Ev :=
  [.add r1 (some a0), .available, .answer 1 false, .timer 0, .add r2 (some a0), .answer 2 true, .remove r1, .timer 0, .answer 3 true, .remove r2]

/-- It succeeds, and the result has the property. -/
def okAnd {α : Type} (x : Except Fault α) (p : α → Bool) : Bool := match x with | .ok s => p s | .error _ => false
/-- It fails so. -/
def fails {α : Type} (x : Except Fault α) (f : Fault) : Bool := match x with | .ok _ => false | .error e => e == f

theorem fails_eq {α : Type} {x : Except Fault α} {f : Fault} (h : fails x f = true) : x = .error f := by
  cases x with
  | ok _ => cases h
  | error e => rw [eq_of_beq h]

def cleanB (s : St) : Ev → Bool
  | .add _ (some a) => s.recs.all (fun x => x.pfx != a.pfx || x.n != 0)
  | .remove r => s.map.all (fun y => y.1 != r || s.recs.all (fun x => x.id != y.2 || x.n != 1 || s.flight.all (fun c => c.target != x.id)))
  | .timer id => s.recs.all (fun x => x.id != id || x.n != 0 || (match x.evt with | some (.adv, _) => false | _ => true))
  | .unavailable => s.flight.all (fun c => c.op != .wd)
  | .destroy => s.flight.isEmpty
  | _ => true

def ribOkB (l : List (Route × Option Name)) : Ev → Bool
  | .add r _ => l.all (fun x => x.1 != r)
  | .remove r => l.any (fun x => x.1 == r)
  | _ => true

def cleanRunB (refresh : Nat) : St → List (Route × Option Name) → List Ev → Bool
  | _, _, [] => true
  | s, l, e :: es => cleanB s e && ribOkB l e && okAnd (step refresh s e) (fun s' => cleanRunB refresh s' (ribAfter l e) es)

theorem clean_of (s : St) (e : Ev) (h : cleanB s e = true) : Clean s e := by
  cases e with
  | add r a =>
    cases a with
    | none => trivial
    | some a => intro x hx hp; have := List.all_eq_true.1 h x hx; simp [hp] at this; exact this
  | remove r =>
    intro y hy hyr x hx hxy hn c hc
    have := List.all_eq_true.1 h y hy
    simp only [hyr, bne_self_eq_false, Bool.false_or] at this
    have := List.all_eq_true.1 this x hx
    simp only [hxy, hn, bne_self_eq_false, Bool.false_or] at this
    have := List.all_eq_true.1 this c hc
    rw [hxy]; simpa using this
  | timer id =>
    intro x hx hid hn d hd
    have := List.all_eq_true.1 h x hx
    simp [hid, hn, hd] at this
  | unavailable => intro c hc; have := List.all_eq_true.1 h c hc; simpa using this
  | destroy => exact List.isEmpty_iff.1 h
  | _ => trivial

theorem ribOk_of (l : List (Route × Option Name)) (e : Ev) (h : ribOkB l e = true) : ribOk l e := by
  cases e with
  | add r a => intro x hx; have := List.all_eq_true.1 h x hx; simpa using this
  | remove r => obtain ⟨x, hx, hr⟩ := List.any_eq_true.1 h; exact ⟨x, hx, by simpa using hr⟩
  | _ => trivial

theorem cleanRun_of (refresh : Nat) (evs : List Ev) : ∀ (s : St) (l : List (Route × Option Name)), cleanRunB refresh s l evs = true → CleanRun refresh s l evs := by
  induction evs with
  | nil => intros; trivial
  | cons e es ih =>
    intro s l h
    simp only [cleanRunB, Bool.and_eq_true] at h
    refine ⟨clean_of s e h.1.1, ribOk_of l e h.1.2, fun s' hs => ih s' _ ?_⟩
    have := h.2
    rw [hs] at this
    exact this

example : CleanRun 25000 {} [] (good ++ [.answer 4 true]) := cleanRun_of _ _ _ _ (by decide +kernel)
/-- Before the withdrawal the prefix is at the destination; the withdrawal is then sent, and at the end it is not there any more. -/
example : okAnd (run 25000 {} good.dropLast) (fun s => s.avail && s.flight.isEmpty && status (nm ["a"]) s.out == some true) = true := by decide +kernel
example : okAnd (run 25000 {} (good ++ [.answer 4 true])) (fun s => s.avail && s.recs.isEmpty && status (nm ["a"]) s.out == some false && s.out.length == 9) = true := by
  decide +kernel
/-- The retry after a failure waits 100 seconds, the next 200 seconds. -/
example : okAnd (run 25000 {} [.add r1 (some a0), .available, .answer 1 false, .timer 0, .answer 2 false]) (fun s => s.recs.any (fun x => x.evt == some (.adv, 200000))) = true := by
  decide +kernel
/-- The conditions of `C61_backoff` are met. -/
example : okAnd (run 25000 {} [.add r1 (some a0), .available]) (fun s => s.alive && s.flight.any (fun c => c.serial == 1 && (get s c.target).isSome)) = true := by decide +kernel

/-- **C61 does not hold in general** (1): the last route of a prefix is removed while its advertisement is unanswered. The withdrawal
is sent at once; when its success arrives first, the callback of the advertisement uses the erased record. -/
theorem C61_late_answer_violation : run 25000 {} [.available, .add r1 (some a0), .remove r1, .answer 2 true, .answer 1 true] = .error .dangling := fails_eq (by decide +kernel)

/-- (2) A route is added while the withdrawal of its prefix is unanswered. The record is erased when the withdrawal succeeds: the route
is in the RIB, the destination has withdrawn the prefix, nothing will advertise it again... -/
theorem C61_readded_violation :
    okAnd (run 25000 {} [.available, .add r1 (some a0), .answer 1 true, .remove r1, .add r2 (some a0), .answer 3 true, .answer 2 true])
      (fun s => s.alive && s.avail && s.flight.isEmpty && s.recs.isEmpty && status (nm ["a"]) s.out == some false) = true := by decide +kernel

/-- ... and removing the route uses the erased record. -/
theorem C61_readded_then_removed_violation :
    run 25000 {} [.available, .add r1 (some a0), .answer 1 true, .remove r1, .add r2 (some a0), .answer 3 true, .answer 2 true, .remove r2] = .error .dangling := fails_eq (by decide +kernel)

/-- (3) The refresh of a prefix comes due while its withdrawal is unanswered: the assertion that it has a route fails. -/
theorem C61_refresh_violation : run 25000 {} [.available, .add r1 (some a0), .answer 1 true, .remove r1, .timer 0] = .error .assert := fails_eq (by decide +kernel)

/-- (4) A withdrawal fails, and a route with the prefix is added before the retry: the assertion that there is none fails. -/
theorem C61_retry_violation :
    run 25000 {} [.available, .add r1 (some a0), .answer 1 true, .remove r1, .answer 2 false, .add r2 (some a0), .timer 0] = .error .assert := fails_eq (by decide +kernel)

/-- (5) The destination becomes unavailable while a withdrawal is unanswered: the record is erased, then used by the callback. -/
theorem C61_unavailable_violation :
    run 25000 {} [.available, .add r1 (some a0), .answer 1 true, .remove r1, .unavailable, .answer 2 false] = .error .dangling := fails_eq (by decide +kernel)

/-- (6) Readvertising is switched off while a command is unanswered: its callback uses the destroyed object. (The daemon applies the
section of the configuration that does this only when it starts.) -/
theorem C61_disabled_violation : run 25000 {} [.available, .add r1 (some a0), .destroy, .answer 1 true] = .error .dangling := fails_eq (by decide +kernel)

/-! ### C87: when the destination is available -/

/-- The entries in the RIB after some events. -/
def entriesAfter (l : List Name) : RibEv → List Name
  | .insert n => n :: l
  | .erase n => l.filter (fun m => m != n)

/-- The RIB inserts entries it does not have and erases entries it has. -/
def entriesOk : List Name → List RibEv → Prop
  | _, [] => True
  | l, .insert n :: es => n ∉ l ∧ entriesOk (n :: l) es
  | l, .erase n :: es => n ∈ l ∧ entriesOk (l.filter (fun m => m != n)) es

/-- At no time there are two entries for prefixes of `cmd`. -/
def oneAtATime (cmd : Name) : List Name → List RibEv → Prop
  | l, [] => ∀ m ∈ l, ∀ n ∈ l, m <+: cmd → n <+: cmd → m = n
  | l, e :: es => (∀ m ∈ l, ∀ n ∈ l, m <+: cmd → n <+: cmd → m = n) ∧ oneAtATime cmd (entriesAfter l e) es

/-- **C87**, the part that holds: if there never are two entries for prefixes of the command prefix, the destination is available iff
there is one. Missing: with two of them, erasing one makes the destination unavailable (below). -/
theorem C87_partial (cmd : Name) (evs : List RibEv) (h : entriesOk [] evs) (h1 : oneAtATime cmd [] evs) :
    (Dest.run cmd evs).avail = true ↔ ∃ n ∈ evs.foldl entriesAfter [], n <+: cmd := by
  have : ∀ (evs : List RibEv) (d : Dest) (l : List Name), (d.avail = true ↔ ∃ n ∈ l, n <+: cmd) → entriesOk l evs → oneAtATime cmd l evs →
      ((evs.foldl (Dest.step cmd) d).avail = true ↔ ∃ n ∈ evs.foldl entriesAfter l, n <+: cmd) := by
    intro evs
    induction evs with
    | nil => intro d l h _ _; exact h
    | cons e es ih =>
      intro d l h hok hone
      simp only [List.foldl_cons]
      cases e with
      | insert n =>
        refine ih _ _ ?_ hok.2 hone.2
        simp only [Dest.step, entriesAfter]
        by_cases hn : Name.isPrefixOf n cmd = true
        · rw [if_pos hn]
          exact ⟨fun _ => ⟨n, List.mem_cons_self, Name.isPrefixOf_iff.1 hn⟩, fun _ => rfl⟩
        · rw [if_neg hn, h]
          constructor
          · rintro ⟨m, hm, h'⟩; exact ⟨m, List.mem_cons_of_mem _ hm, h'⟩
          · rintro ⟨m, hm, h'⟩
            rcases List.mem_cons.1 hm with rfl | hm
            · exact absurd (Name.isPrefixOf_iff.2 h') hn
            · exact ⟨m, hm, h'⟩
      | erase n =>
        refine ih _ _ ?_ hok.2 hone.2
        simp only [Dest.step, entriesAfter]
        by_cases hn : Name.isPrefixOf n cmd = true
        · rw [if_pos hn]
          simp only [Bool.false_eq_true, false_iff]
          rintro ⟨m, hm, h'⟩
          obtain ⟨hm, hne⟩ := List.mem_filter.1 hm
          simp only [bne_iff_ne, ne_eq] at hne
          exact hne (hone.1 m hm n hok.1 h' (Name.isPrefixOf_iff.1 hn))
        · rw [if_neg hn, h]
          constructor
          · rintro ⟨m, hm, h'⟩
            refine ⟨m, List.mem_filter.2 ⟨hm, ?_⟩, h'⟩
            simp only [bne_iff_ne, ne_eq]
            rintro rfl
            exact hn (Name.isPrefixOf_iff.2 h')
          · rintro ⟨m, hm, h'⟩; exact ⟨m, (List.mem_filter.1 hm).1, h'⟩
  exact this evs {} [] (by simp) h h1

/-- **C87**, in every history: the destination is available only if an entry for a prefix of the command prefix was inserted. -/
theorem C87_only (cmd : Name) (evs : List RibEv) (h : (Dest.run cmd evs).avail = true) : ∃ n, .insert n ∈ evs ∧ n <+: cmd := by
  have : ∀ (evs : List RibEv) (d : Dest), (evs.foldl (Dest.step cmd) d).avail = true → d.avail = true ∨ ∃ n, .insert n ∈ evs ∧ n <+: cmd := by
    intro evs
    induction evs with
    | nil => intro d h; exact Or.inl h
    | cons e es ih =>
      intro d h
      rcases ih _ h with h | ⟨n, hn, h'⟩
      · cases e with
        | insert n =>
          simp only [Dest.step] at h
          split at h
          · exact Or.inr ⟨n, List.mem_cons_self, Name.isPrefixOf_iff.1 (by assumption)⟩
          · exact Or.inl h
        | erase n =>
          simp only [Dest.step] at h
          split at h
          · cases h
          · exact Or.inl h
      · exact Or.inr ⟨n, List.mem_cons_of_mem _ hn, h'⟩
  rcases this evs {} h with h | h
  · cases h
  · exact h

/-- An entry for a prefix of the command prefix comes, goes and comes back, between entries for other names. -/
example : let evs := [.insert (nm ["x"]), .insert (nm ["localhop"]), .erase (nm ["localhop"]), .insert (nm ["localhop", "nfd"]), .erase (nm ["x"])]
    entriesOk [] evs ∧ (Dest.run localhopTop evs).avail = true := by
  refine ⟨?_, by decide +kernel⟩
  simp only [entriesOk]
  decide +kernel

/-- **C87 does not hold in general**: `/` and `/localhop/nfd` have routes; the entry for `/` is erased, and the destination counts as
unavailable although its prefix is still reachable. -/
theorem C87_violation : let evs := [.insert [], .insert localhopTop, .erase []]
    entriesOk [] evs ∧ (Dest.run localhopTop evs).avail = false ∧ localhopTop ∈ evs.foldl entriesAfter [] := by
  refine ⟨?_, by decide +kernel, by decide +kernel⟩
  simp only [entriesOk]
  decide +kernel

end Verif.Readv
