import Verif.Tables.FibProps
import Verif.Fw.Model

/-
C78: the FIB entry a strategy forwards an Interest by.
-/
namespace Verif.Strat

open Tb (FaceId NextHop Tables Env fibLpm fibLpmPit fibAt LongestPrefix Managed Live PitEntry)

/-- The loop over the delegations (strategy.cpp:316-331). `found` is `fibEntry`; `none` is a failed assertion. -/
def lookupLoop (e : Env) (s : Tables) : List Name → Option (Name × List NextHop) → Option (Name × List NextHop)
  | [], found => found.bind (fun x => if x.1 = [] then some x else none)
  | d :: l, _ =>
    let x := fibLpm e s d
    if x.2 ≠ [] then some x
    else if x.1 = [] then lookupLoop e s l (some x)
    else none

/-- `Strategy::lookupFib` (strategy.cpp:298-334) for the PIT entry of an Interest with this name and forwarding hint. -/
def lookupFib (e : Env) (s : Tables) (regions : List Name) (name : Name) (hints : List Name) : Option (Name × List NextHop) :=
  if hints = [] then fibLpmPit e s name
  else if Fw.inProducerRegion regions hints then none
  else lookupLoop e s hints none

/-! ### Specification -/

/-- The entry found for a name: that of the longest prefix with routes, or no routes. -/
def RoutesOf (e : Env) (s : Tables) (name : Name) (p : Name) (nhs : List NextHop) : Prop :=
  (fibAt e s p = some nhs ∧ LongestPrefix (fun m => (fibAt e s m).isSome) name p) ∨
  (p = [] ∧ nhs = [] ∧ ∀ m, m <+: name → fibAt e s m = none)

/-- Some prefix of the name has routes. -/
def HasRoutes (e : Env) (s : Tables) (name : Name) : Prop := ∃ m, m <+: name ∧ (fibAt e s m).isSome

/-! ### Proof -/

variable {e : Env} {dflt : Name} {s : Tables}

theorem managed_reachable (h : Managed e dflt s) : Tb.Inv e s := by
  induction h with
  | init h0 => exact Tb.init_inv h0
  | add p f c _ h ih =>
    simp only [Tb.run, Option.bind_eq_some_iff] at h
    obtain ⟨s1, h1, s2, h2, h3⟩ := h
    obtain rfl := Option.some.inj h3
    exact Tb.step_inv (Tb.step_inv ih _ h1) _ h2
  | other op _ _ h ih => exact Tb.step_inv ih op h

theorem lpm_routes (h : Managed e dflt s) (name : Name) :
    (HasRoutes e s name ∧ (fibLpm e s name).2 ≠ [] ∧ RoutesOf e s name (fibLpm e s name).1 (fibLpm e s name).2) ∨
    (¬HasRoutes e s name ∧ fibLpm e s name = ([], [])) := by
  rcases Tb.fibLpm_spec (managed_reachable h).tree name with ⟨p, l, h1, h2, h3⟩ | ⟨h1, h2⟩
  · refine Or.inl ⟨⟨p, h3.1, h3.2.1⟩, ?_, ?_⟩
    · rw [h1]
      intro hc
      refine Tb.C16_nonempty h p ?_
      show (Tb.view e s p).fib = _
      rw [h2]
      exact congrArg some hc
    · rw [h1]
      exact Or.inl ⟨h2, h3⟩
  · refine Or.inr ⟨?_, h1⟩
    rintro ⟨m, hm, hs⟩
    have : fibAt e s m = none := h2 m hm
    rw [this] at hs
    cases hs

/-- C78: without a forwarding hint, the routes are those of the longest prefix of the Interest's name. -/
theorem C78_by_name (hr : Tb.Reachable e dflt s) (regions : List Name) (p : PitEntry) (hp : Live e s p) :
    ∃ m nhs, lookupFib e s regions p.interest.name [] = some (m, nhs) ∧ RoutesOf e s p.interest.name m nhs := by
  unfold lookupFib
  rw [if_pos rfl, Tb.C15_lpm_pit hr p hp]
  rcases Tb.C15_lpm hr p.interest.name with ⟨m, nhs, h1, h2, h3⟩ | ⟨h1, h2⟩
  · exact ⟨m, nhs, by rw [h1], Or.inl ⟨h2, h3⟩⟩
  · exact ⟨[], [], by rw [h1], Or.inr ⟨rfl, rfl, h2⟩⟩

/-- C78: with a forwarding hint, outside the producer's region, the routes are those of the first delegation for which there are any, and
if there is no such delegation there are none. No assertion fails. -/
theorem C78_by_hint (h : Managed e dflt s) (regions : List Name) (name : Name) {hints : List Name} (hne : hints ≠ [])
    (hreg : ∀ d ∈ hints, ∀ r ∈ regions, ¬d <+: r) :
    (∀ a d b, hints = a ++ d :: b → (∀ x ∈ a, ¬HasRoutes e s x) → HasRoutes e s d →
      ∃ m nhs, nhs ≠ [] ∧ lookupFib e s regions name hints = some (m, nhs) ∧ RoutesOf e s d m nhs) ∧
    ((∀ x ∈ hints, ¬HasRoutes e s x) → lookupFib e s regions name hints = some ([], [])) := by
  have hr : Fw.inProducerRegion regions hints = false := by
    unfold Fw.inProducerRegion
    rw [List.any_eq_false]
    intro r hr
    rw [Bool.not_eq_true, List.any_eq_false]
    intro d hd hc
    exact hreg d hd r hr (List.isPrefixOf_iff_prefix.1 hc)
  have hl : lookupFib e s regions name hints = lookupLoop e s hints none := by
    unfold lookupFib
    rw [if_neg hne, if_neg (by rw [hr]; simp)]
  have first : ∀ {a : List Name} {d : Name} {b : List Name} {o : Option (Name × List NextHop)}, (∀ x ∈ a, ¬HasRoutes e s x) → HasRoutes e s d →
      lookupLoop e s (a ++ d :: b) o = some (fibLpm e s d) := by
    intro a
    induction a with
    | nil =>
      intro d b o _ hd
      simp only [List.nil_append, lookupLoop]
      rcases lpm_routes h d with ⟨-, h1, -⟩ | ⟨h1, -⟩
      · rw [if_pos h1]
      · exact absurd hd h1
    | cons x a ih =>
      intro d b o ha hd
      simp only [List.cons_append, lookupLoop]
      rcases lpm_routes h x with ⟨h1, -, -⟩ | ⟨-, h1⟩
      · exact absurd h1 (ha x List.mem_cons_self)
      · rw [h1, if_neg (by simp), if_pos rfl]
        exact ih (fun y hy => ha y (List.mem_cons_of_mem _ hy)) hd
  constructor
  · intro a d b hab ha hd
    rw [hl, hab, first ha hd]
    rcases lpm_routes h d with ⟨-, h1, h2⟩ | ⟨h1, -⟩
    · exact ⟨_, _, h1, rfl, h2⟩
    · exact absurd hd h1
  · intro hno
    rw [hl]
    have key : ∀ {l : List Name} {o : Option (Name × List NextHop)}, (∀ x ∈ l, ¬HasRoutes e s x) → (l ≠ [] ∨ o = some ([], [])) →
        lookupLoop e s l o = some ([], []) := by
      intro l
      induction l with
      | nil =>
        intro o _ ho
        rw [ho.resolve_left (fun hc => hc rfl)]
        rfl
      | cons x l ih =>
        intro o hx _
        simp only [lookupLoop]
        rcases lpm_routes h x with ⟨h1, -, -⟩ | ⟨-, h1⟩
        · exact absurd h1 (hx x List.mem_cons_self)
        · rw [h1, if_neg (by simp), if_pos rfl]
          exact ih (fun y hy => hx y (List.mem_cons_of_mem _ hy)) (Or.inr rfl)
    exact key hno (Or.inl hne)

/-- The assertion that the hint has been stripped in the producer's region fails if the region is configured while the Interest is pending:
then a later event that looks at the pending Interest (a NoRoute Nack under self-learning, a retransmission timer of the access strategy)
stops the forwarder. -/
theorem C78_region_changed (e : Env) (s : Tables) (name : Name) (regions hints : List Name) {d r : Name} (hd : d ∈ hints) (hr : r ∈ regions)
    (h : d <+: r) : lookupFib e s regions name hints = none := by
  unfold lookupFib
  rw [if_neg (fun hc => by rw [hc] at hd; cases hd), if_pos]
  unfold Fw.inProducerRegion
  exact List.any_eq_true.2 ⟨r, hr, List.any_eq_true.2 ⟨d, hd, List.isPrefixOf_iff_prefix.2 h⟩⟩

/-! ### Non-vacuity -/

open Tb in
example : (exRun [.fibInsert [gc 1, gc 2], .fibSet [gc 1, gc 2] 300 10, .fibInsert [gc 5], .fibSet [gc 5] 301 7, .pitInsert { name := [gc 1, gc 2, gc 3] }]).any (fun s =>
    lookupFib exEnv s [[gc 9]] [gc 1, gc 2, gc 3] [] == some ([gc 1, gc 2], [⟨300, 10⟩]) &&
    lookupFib exEnv s [[gc 9]] [gc 1, gc 2, gc 3] [[gc 7], [gc 5, gc 6], [gc 1, gc 2]] == some ([gc 5], [⟨301, 7⟩]) &&
    lookupFib exEnv s [[gc 9]] [gc 1, gc 2, gc 3] [[gc 7], [gc 8]] == some ([], []) &&
    lookupFib exEnv s [[gc 7, gc 1]] [gc 1, gc 2, gc 3] [[gc 7], [gc 8]] == none) = true := by decide +kernel

end Verif.Strat
