import Verif.Rib.History
import Verif.Rib.Witness

/-
Properties of the RIB: C55, C56, C57, C59, C84.
-/
namespace Verif.Rib

open Spec (own ownInherit captures inheritedFrom view)

/-! ### Example data -/

/-- Routes at three names, with inheritance and capture, two origins, updates, removal of routes and names, a face that disappears, and a route that is refused. -/
def history : List Op :=
  [.create 1, .create 2, .create 3,
   W.reg W.root 1 0 10 true false, W.reg W.ab 2 0 5 true false, W.reg W.a 1 0 3 true false, W.reg W.a 1 1 3 true false, W.reg W.ab 4 0 1 true false,
   W.reg W.a 1 0 3 true false, W.unreg W.a 1 1, W.unreg W.a 1 0, W.reg W.a 3 0 7 true true, W.reg W.root 2 0 8 true false,
   .destroy 2, W.removeFace W.root 2 0, W.removeFace W.ab 2 0, W.unreg W.a 3 0]

def okAnd (r : Except Fault Sys) (p : Sys → Bool) : Bool := match r with | .ok s => p s | .error _ => false

theorem okAnd_ex {r : Except Fault Sys} {p : Sys → Bool} (h : okAnd r p = true) : ∃ s, r = .ok s ∧ p s = true := by
  unfold okAnd at h
  cases r with
  | ok s => exact ⟨s, rfl, h⟩
  | error f => cases h

/-! ### C55: the FIB follows the RIB -/

/-- After every benign history of fewer than 2^64 operations the FIB has, for all names and all faces there are, the next hops that follow from the routes.
Missing: histories that are not benign, for which the FIB can be wrong (Verif.Rib.Witness). -/
theorem C55_partial (tie : List Route → Nat) (ops : List Op) (hb : BenignRun tie Sys.init ops) (hl : ops.length < W) :
    ∃ s, Sys.run tie Sys.init ops = .ok s ∧ ∀ n f, s.face f = .alive → s.fib n f = view s.rib.routes n f := by
  obtain ⟨s, h1, h2⟩ := Sync.init.run tie (by omega) hb
  exact ⟨s, h1, h2.live⟩

/-- And no next hops for faces there are not. -/
theorem C55_dead_partial (tie : List Route → Nat) (ops : List Op) (hb : BenignRun tie Sys.init ops) (hl : ops.length < W) :
    ∃ s, Sys.run tie Sys.init ops = .ok s ∧ ∀ n f, s.face f ≠ .alive → s.fib n f = none := by
  obtain ⟨s, h1, h2⟩ := Sync.init.run tie (by omega) hb
  exact ⟨s, h1, h2.dead⟩

example : BenignRun W.tie Sys.init history ∧ history.length < W := ⟨benignRun_sound (by decide +kernel), by decide⟩

/-- In the middle of the example: `/a` has taken the place of `/` for face 1, `/a/b` inherits from `/a`, and nothing of what is above after it captures. -/
example : okAnd (Sys.run W.tie Sys.init (history.take 10)) (fun s => s.fib W.ab 1 == some 3 && s.fib W.ab 4 == none && s.fib W.ab 2 == some 5) = true ∧
    okAnd (Sys.run W.tie Sys.init (history.take 13)) (fun s => s.fib W.ab 1 == none && s.fib W.ab 3 == some 7 && s.fib W.a 2 == none && s.fib W.root 2 == some 8) = true ∧
    okAnd (Sys.run W.tie Sys.init history) (fun s => s.fib W.ab 3 == none && s.fib W.root 1 == some 10) = true := by
  refine ⟨?_, ?_, ?_⟩ <;> decide +kernel

/-! ### C56: structure of the RIB -/

/-- `p` is the longest of the names that is a proper prefix of `n`. -/
def LongestProperPrefix (names : List Name) (n p : Name) : Prop :=
  p ∈ names ∧ p <+: n ∧ p ≠ n ∧ ∀ q ∈ names, q <+: n → q ≠ n → q.length ≤ p.length

theorem mem_names {b : Rib} {n : Name} : n ∈ names b ↔ (get b.table n).isSome = true := by
  unfold names Rib.get
  rw [List.find?_isSome, List.mem_map]
  constructor
  · rintro ⟨e, he, rfl⟩; exact ⟨e, he, by simp⟩
  · rintro ⟨e, he, hn⟩; exact ⟨e, he, by simpa using hn⟩

theorem parentOf_iff {b : Rib} {n p : Name} : parentOf b.table n = some p ↔ LongestProperPrefix (names b) n p := by
  constructor
  · intro h
    obtain ⟨h1, h2, h3, h4⟩ := parentOf_some h
    refine ⟨mem_names.2 h1, h2, (fun hc => by rw [hc] at h3; omega), fun q hq a1 a2 => ?_⟩
    apply Decidable.byContradiction
    intro hlt
    have := h4 q a1 (length_lt_of_prefix a1 (fun hc => a2 hc.symm)) (by omega)
    have hq := mem_names.1 hq
    rw [this] at hq; cases hq
  · rintro ⟨h1, h2, h3, h4⟩
    refine parentOf_eq_some (mem_names.1 h1) h2 (length_lt_of_prefix h2 (fun hc => h3 hc.symm)) (fun q a1 a2 a3 => ?_)
    cases hg : get b.table q with
    | none => rfl
    | some e =>
      have := h4 q (mem_names.2 (by rw [hg]; rfl)) a1 (fun hc => by rw [hc] at a2; omega)
      omega

/-- After every history: names are different; every name has routes; the parent is the entry of the longest proper prefix, and the children are the entries of which
it is the parent; and the number of routes is right. -/
theorem C56_tree (tie : List Route → Nat) (ops : List Op) (s : Sys) (h : Sys.run tie Sys.init ops = .ok s) :
    (names s.rib).Nodup ∧
    (∀ e ∈ s.rib.table, e.routes ≠ [] ∧ (∀ p, e.parent = some p ↔ LongestProperPrefix (names s.rib) e.name p) ∧
      e.children.Nodup ∧ ∀ c, c ∈ e.children ↔ ∃ x ∈ s.rib.table, x.name = c ∧ x.parent = some e.name) ∧
    s.rib.nItems = (s.rib.table.map (fun e => e.routes.length)).sum := by
  have hi := run_rinv RInv.init h
  refine ⟨?_, fun e he => ?_, hi.items⟩
  · exact hi.tree.sorted.nodup
  · have hg := get_of_mem hi.tree.sorted.nodup he
    refine ⟨hi.nonempty _ e hg, fun p => ?_, hi.tree.nodup _ e hg, fun c => ?_⟩
    · rw [hi.tree.parent _ e hg, parentOf_iff]
    · rw [hi.tree.children _ e hg c]
      constructor
      · rintro ⟨h1, h2⟩
        obtain ⟨x, hx⟩ := Option.isSome_iff_exists.1 h1
        exact ⟨x, List.mem_of_find?_eq_some hx, get_name hx, by rw [hi.tree.parent c x hx]; exact h2⟩
      · rintro ⟨x, hx, rfl, h2⟩
        have hgx := get_of_mem hi.tree.sorted.nodup hx
        exact ⟨by rw [hgx]; rfl, by rw [← hi.tree.parent _ x hgx]; exact h2⟩

example : okAnd (Sys.run W.tie Sys.init (history.take 7)) (fun s => (names s.rib).length == 3 && s.rib.nItems == 4 &&
    s.rib.table.any (fun e => e.name == W.ab && e.parent == some W.a)) = true := by decide +kernel

/-- No assertion fails, and the only null pointer dereference is that of a registration that makes the cheapest route to a face more expensive than another one
when no route to it is inheritable. -/
theorem C56_faults (tie : List Route → Nat) (ops : List Op) (f : Fault) (h : Sys.run tie Sys.init ops = .error f) :
    f = .nullPointer ∧ ∃ pre u post s, ops = pre ++ .update u :: post ∧ Sys.run tie Sys.init pre = .ok s ∧ Crashes s.rib.routes u :=
  run_error RInv.init h

/-- Such a registration always does. -/
theorem C56_crash (tie : List Route → Nat) (pre : List Op) (s : Sys) (h : Sys.run tie Sys.init pre = .ok s) (u : Update) (hc : Crashes s.rib.routes u) :
    s.step tie (.update u) = .error .nullPointer := by
  have hi := run_rinv RInv.init h
  have hu := update_cases (tie := tie) (u := u) hi
  rw [(emits_error hi tie u .nullPointer).2 ⟨rfl, hc⟩] at hu
  exact hu

example : okAnd (Sys.run W.tie Sys.init (W.faces ++ [W.reg W.a 1 0 10 false false, W.reg W.a 1 1 20 false false])) (fun s =>
    s.rib.routes W.a == [⟨1, 0, 10, false, false⟩, ⟨1, 1, 20, false, false⟩]) = true ∧
    ∀ R : Name → List Route, R W.a = [⟨1, 0, 10, false, false⟩, ⟨1, 1, 20, false, false⟩] → Crashes R ⟨.register, W.a, ⟨1, 0, 30, false, false⟩⟩ := by
  refine ⟨by decide +kernel, fun R hR => ⟨rfl, ⟨1, 0, 10, false, false⟩, ?_, by decide, 20, ?_⟩⟩
  · show _ ∈ R W.a; rw [hR]; simp
  · show own (Spec.setRoute (R W.a) _) _ = _ ∧ _ ∧ _ ∧ ownInherit (Spec.setRoute (R W.a) _) _ = _
    rw [hR]; decide

/-! ### C57: capture -/

/-- If no registration changes the capture flag of a route that is there, and there are fewer than 2^64 operations, an entry says that it captures iff it has a capture route.
Missing: registrations that change the capture flag of a route. -/
theorem C57_partial (tie : List Route → Nat) (ops : List Op) (hk : KeepsCapture tie Sys.init ops) (hl : ops.length < W) (s : Sys)
    (h : Sys.run tie Sys.init ops = .ok s) (e : Entry) (he : e ∈ s.rib.table) : e.hasCapture = true ↔ ∃ r ∈ e.routes, r.capture = true := by
  have hi := run_rinv RInv.init h
  have hc := run_capOk RInv.init (fun n e h => by cases h) (by omega) hk h
  rw [hasCapture_of_count (hc _ e (get_of_mem hi.tree.sorted.nodup he))]
  unfold captures
  rw [List.any_eq_true]

theorem BenignRun.keepsCapture {tie : List Route → Nat} {s : Sys} {l : List Op} (h : BenignRun tie s l) : KeepsCapture tie s l := by
  induction l generalizing s with
  | nil => trivial
  | cons o l ih =>
    obtain ⟨h1, h2⟩ := h
    refine ⟨?_, ?_⟩
    · cases o with
      | create f => trivial
      | destroy f => trivial
      | update u =>
        intro hr old ho hf hor
        have := h1.2
        rw [hr] at this
        exact this.capture old ho (same_iff.2 ⟨hf, hor⟩)
    · cases hs : s.step tie o with
      | error f => trivial
      | ok s' => rw [hs] at h2; exact ih h2

example : KeepsCapture W.tie Sys.init history ∧
    okAnd (Sys.run W.tie Sys.init (history.take 12)) (fun s => s.rib.table.any (fun e => e.name == W.a && e.hasCapture)) = true :=
  ⟨BenignRun.keepsCapture (benignRun_sound (by decide +kernel)), by decide +kernel⟩

/-- When a registration changes the flag, the entry does not notice. -/
theorem C57_violated : ∃ s, Sys.run W.tie Sys.init (W.faces ++ [W.reg W.a 1 0 5 true true, W.reg W.a 1 0 5 true false]) = .ok s ∧
    ∃ e ∈ s.rib.table, e.hasCapture = true ∧ ∀ r ∈ e.routes, r.capture = false := by
  obtain ⟨s, h1, h2⟩ := okAnd_ex (r := Sys.run W.tie Sys.init (W.faces ++ [W.reg W.a 1 0 5 true true, W.reg W.a 1 0 5 true false]))
    (p := fun s => s.rib.table.any (fun e => e.hasCapture && e.routes.all (fun r => !r.capture))) (by decide +kernel)
  refine ⟨s, h1, ?_⟩
  obtain ⟨e, he, h3⟩ := List.any_eq_true.1 h2
  simp only [Bool.and_eq_true, List.all_eq_true, Bool.not_eq_true'] at h3
  exact ⟨e, he, h3.1, h3.2⟩

/-- When such a route is removed, the counter goes below zero, and the name captures for as long as it exists. -/
theorem C57_violated_underflow : ∃ s, Sys.run W.tie Sys.init (W.faces ++ [W.reg W.a 1 0 5 true false, W.reg W.a 2 0 5 true false, W.reg W.a 1 0 5 true true, W.unreg W.a 1 0]) = .ok s ∧
    ∃ e ∈ s.rib.table, e.nCapture = W - 1 ∧ e.hasCapture = true ∧ ∀ r ∈ e.routes, r.capture = false := by
  obtain ⟨s, h1, h2⟩ := okAnd_ex
    (r := Sys.run W.tie Sys.init (W.faces ++ [W.reg W.a 1 0 5 true false, W.reg W.a 2 0 5 true false, W.reg W.a 1 0 5 true true, W.unreg W.a 1 0]))
    (p := fun s => s.rib.table.any (fun e => e.nCapture == W - 1 && e.hasCapture && e.routes.all (fun r => !r.capture))) (by decide +kernel)
  refine ⟨s, h1, ?_⟩
  obtain ⟨e, he, h3⟩ := List.any_eq_true.1 h2
  simp only [Bool.and_eq_true, List.all_eq_true, Bool.not_eq_true', beq_iff_eq] at h3
  exact ⟨e, he, h3.1.1, h3.1.2, h3.2⟩

/-! ### C59: removal of faces -/

/-- After every history: when the updates queued by `beginRemoveFace` (or `beginRemoveFailedFaces`) are done, in any order and number of repetitions, the routes to these faces are gone
and the others are as they were. -/
theorem C59 (tie : List Route → Nat) (ops : List Op) (s : Sys) (h : Sys.run tie Sys.init ops = .ok s) (dead : Nat → Bool) (queue : List Update)
    (hq : ∀ u, u ∈ queue ↔ u ∈ faceRemovals s.rib dead) :
    ∃ s', s.run tie (queue.map .update) = .ok s' ∧ ∀ n, s'.rib.routes n = (s.rib.routes n).filter (fun r => !dead r.face) := by
  have hi := run_rinv RInv.init h
  obtain ⟨s', h1, h2⟩ := run_removals hi tie queue (fun u hu => (mem_faceRemovals ((hq u).1 hu)).1)
  refine ⟨s', h1, fun n => ?_⟩
  rw [h2]
  refine List.filter_congr (fun x hx => ?_)
  congr 1
  rw [Bool.eq_iff_iff, List.any_eq_true]
  constructor
  · rintro ⟨u, hu, hs⟩
    simp only [Bool.and_eq_true, decide_eq_true_eq] at hs
    rw [(same_iff.1 hs.2).1]
    exact (mem_faceRemovals ((hq u).1 hu)).2
  · intro hd
    refine ⟨⟨.removeFace, n, x⟩, (hq _).2 (faceRemovals_complete hi hx hd), ?_⟩
    simp [same_self]

example : okAnd (Sys.run W.tie Sys.init (history.take 13)) (fun s => faceRemovals s.rib (· == 2) ==
    [⟨.removeFace, W.ab, ⟨2, 0, 5, true, false⟩⟩, ⟨.removeFace, W.root, ⟨2, 0, 8, true, false⟩⟩]) = true := by decide +kernel

/-! ### C84: the RIB has the routes that were registered -/

/-- The effect of an operation on the routes: a registration on a face there is not may be refused, and then nothing changes; otherwise
the route is set or removed, and other routes stay. -/
theorem C84_routes (tie : List Route → Nat) (ops : List Op) (s : Sys) (h : Sys.run tie Sys.init ops = .ok s) (u : Update) (s' : Sys)
    (hs : s.step tie (.update u) = .ok s') :
    (∀ n, s'.rib.routes n = Spec.after s.rib.routes u n) ∨
    ((∀ n, s'.rib.routes n = s.rib.routes n) ∧ s.face u.route.face ≠ .alive ∧ u.action ≠ .removeFace) := by
  have hi := run_rinv RInv.init h
  have hu := update_cases (tie := tie) (u := u) hi
  have hs : s.update tie u = .ok s' := hs
  by_cases ha : u.action = .removeFace
  · obtain ⟨s2, h1, _, _, h2⟩ := update_removeFace hi tie ha
    rw [h1] at hs
    rw [← Except.ok.inj hs]
    exact .inl h2
  · cases hE : emits tie s.rib.table u with
    | error f => rw [hE] at hu; dsimp only at hu; rw [hu] at hs; cases hs
    | ok E =>
      rw [hE] at hu
      obtain ⟨s2, h1, _, _, h2⟩ := hu
      rw [h1] at hs
      rw [← Except.ok.inj hs]
      rcases h2 with ⟨h2, h3, _⟩ | ⟨_, _, _, _, h2, _⟩
      · exact .inr ⟨fun n => by rw [h2], h3, ha⟩
      · exact .inl h2

/-- So on a face there is, a registration is always accepted (unless it crashes, C56). -/
theorem C84_accepted (tie : List Route → Nat) (ops : List Op) (s : Sys) (h : Sys.run tie Sys.init ops = .ok s) (u : Update)
    (hf : s.face u.route.face = .alive) (hc : ¬ Crashes s.rib.routes u) :
    ∃ s', s.step tie (.update u) = .ok s' ∧ ∀ n, s'.rib.routes n = Spec.after s.rib.routes u n := by
  have hi := run_rinv RInv.init h
  have hs := step_rinv hi tie (.update u)
  cases hso : s.step tie (.update u) with
  | error f =>
    rw [hso] at hs
    obtain ⟨_, u', hu', hcr⟩ := hs
    cases hu'
    exact absurd hcr hc
  | ok s' =>
    refine ⟨s', rfl, ?_⟩
    rcases C84_routes tie ops s h u s' hso with h1 | ⟨_, h1, _⟩
    · exact h1
    · exact absurd hf h1

example : okAnd (Sys.run W.tie Sys.init (history.take 8)) (fun s => s.rib.routes W.a == [⟨1, 0, 3, true, false⟩, ⟨1, 1, 3, true, false⟩] &&
    s.rib.routes W.ab == [⟨2, 0, 5, true, false⟩] && s.face 1 == .alive) = true := by decide +kernel

end Verif.Rib
