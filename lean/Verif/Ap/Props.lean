import Verif.Ap.Lemmas
/-! # C129: ASF probes other next hops of a namespace about once in every probing interval -/
namespace Verif.Ap

variable {α : Type} [DecidableEq α]

/-- Two probes for the same FIB entry are at least the probing interval apart, whatever Interests, Data and timeouts there are. Proved when the measurements lifetime is above
five seconds and above the interval, and when the FIB entries used are in the strategy's namespace; `C129_twice` and `C129_never` show the other cases. -/
theorem C129_spacing_partial {c : Cfg α} (hl : max 5000 c.interval < c.lifetime) {es : List (Ev α)} {s : St α} (hp : Proper c es) (hr : Runs c {} es s) :
    Spaced c.interval s.probes :=
  ((Inv.init c).runs (by omega) (by omega) hp hr).1.spaced

/-- And there are probes: once an Interest has been forwarded and while the measurements are kept, when all scheduled functions that are due have run, and the last probe and
the first Interest are an interval (and five seconds) ago, the next Interest for which there is a face to probe is used for a probe. -/
theorem C129_probes_partial {c : Cfg α} (hl : max 5000 c.interval < c.lifetime) {es es' : List (Ev α)} {s s1 s2 : St α} {f i i2 : List α} {r r2 : Nat} {o : Bool}
    (hp : Proper c (es ++ Ev.interest f i r o :: es')) (hr : Runs c {} es s)
    (ha : s.allowed c (.interest f i r o)) (hs : s.step c (.interest f i r o) = some s1)
    (hr2 : Runs c s1 es' s2) (hne : Ev.expire f ∉ es')
    (hran : ∀ t, (t, f) ∈ s2.timers → s2.now < t)
    (hlong : ∀ u, (f, u) ∈ s2.begun ∨ (f, u) ∈ s2.probes → u + max 5000 c.interval ≤ s2.now)
    (ha2 : s2.allowed c (.interest f i2 r2 true)) :
    ∃ s3, s2.step c (.interest f i2 r2 true) = some s3 ∧ s3.probes = s2.probes ++ [(f, s2.now)] := by
  have hp1 : Proper c es := ⟨fun a b d e h => hp.1 a b d e (List.mem_append_left _ h), fun a b h => hp.2 a b (List.mem_append_left _ h)⟩
  have hp2 : Proper c es' := ⟨fun a b d e h => hp.1 a b d e (List.mem_append_right _ (List.mem_cons_of_mem _ h)),
    fun a b h => hp.2 a b (List.mem_append_right _ (List.mem_cons_of_mem _ h))⟩
  have hf : c.under f = true := hp.1 f i r o (List.mem_append_right _ List.mem_cons_self)
  have h0 := ((Inv.init c).runs (by omega) (by omega) hp1 hr).1
  obtain ⟨s1', e1, hs', hi1, he1, hf1, -⟩ := sendProbe_good h0 hf (i := i) (o := o) ha.2.2 (by omega) (by omega)
  have : s1' = s1 := by
    unfold St.step at hs; simp only at hs; rw [hs'] at hs; cases hs; rfl
  subst this
  obtain ⟨hi2, hk⟩ := hi1.runs (by omega) (by omega) hp2 hr2
  obtain ⟨e2, he2, hf2⟩ := hk f e1 he1 hf1 hne
  have hz : s2.cnt f = 0 := by
    unfold St.cnt
    rw [List.countP_eq_zero]
    rintro ⟨t, m⟩ hx
    simp only [decide_eq_true_eq]
    rintro rfl
    obtain ⟨u, hu, hle⟩ := hi2.why _ _ hx
    have := hran _ hx
    have := hlong u hu
    omega
  have hd2 : e2.due = true := by
    have := hi2.one _ _ he2
    rw [hz, hf2] at this
    cases hd : e2.due
    · rw [hd] at this; simp at this
    · rfl
  obtain ⟨s3, e3, hs3, -, -, -, -, -, hpr⟩ := sendProbe_good hi2 hf (i := i2) (o := true) ha2.2.2 (by omega) (by omega)
  exact ⟨s3, hs3, hpr ⟨e2, he2, hd2⟩ rfl⟩

/-- A namespace is always found: for every Interest this strategy is in charge of, with any FIB entry that matches it, the assertion at the end of the search holds. -/
theorem C129_found {c : Cfg α} (s : St α) {f i : List α} (hf : f <+: i) (hu : c.under i = true) (r : Nat) (o : Bool) :
    (∃ s1, s.step c (.interest f i r o) = some s1) ∧ ∃ s1, s.step c (.lookup f i) = some s1 := by
  obtain ⟨s1, n, e, h1, h2⟩ := getOrCreate_some (s := s) hf hu
  constructor
  · unfold St.step St.sendProbe
    simp only [h1, Option.bind_eq_bind, Option.bind_some, h2]
    split
    · obtain ⟨s2, n2, e2, h3, -⟩ := getOrCreate_some (s := if e.first then s1 else { (s1.schedule f r).setFirst n with begun := s1.begun ++ [(f, s1.now)] }) hf hu
      rw [h3]
      exact ⟨_, rfl⟩
    · exact ⟨_, rfl⟩
  · unfold St.step
    simp only [h1]
    exact ⟨_, rfl⟩

/-! ### A run that meets the hypotheses: the default parameters, a FIB entry for `[1]`, an Interest at 0 and its first probe after 3000 ms -/

def exCfg : Cfg Nat := { interval := 60000, lifetime := 300000, under := fun _ => true }
def exBefore : List (Ev Nat) := [.interest [1] [1, 2] 3000 true]
def exAfter : List (Ev Nat) := [.touch [1, 2], .tick 3000, .fire 3000 [1], .tick 4000]

/-- Runs the events, checking what is allowed where that can be decided. -/
def exRun (c : Cfg Nat) : St Nat → List (Ev Nat) → Option (St Nat)
  | s, [] => some s
  | s, e :: es => (s.step c e).bind (fun s1 => exRun c s1 es)

theorem exRun_cons {c : Cfg Nat} {s s1 : St Nat} {e : Ev Nat} {es : List (Ev Nat)} (h : s.step c e = some s1) : exRun c s (e :: es) = exRun c s1 es := by
  rw [exRun, h]; rfl

theorem runs_of_exRun {c : Cfg Nat} {es : List (Ev Nat)} : ∀ {s s' : St Nat}, (∀ e ∈ es, ∀ s : St Nat, s.allowed c e) → exRun c s es = some s' → Runs c s es s' := by
  induction es with
  | nil => intro s s' _ h; cases h; rfl
  | cons e es ih =>
    intro s s' ha h
    unfold exRun at h
    rw [Option.bind_eq_some_iff] at h
    obtain ⟨s1, h1, h2⟩ := h
    exact ⟨s1, ha e List.mem_cons_self s, h1, ih (fun e' he' => ha e' (List.mem_cons_of_mem _ he')) h2⟩

/-- the first probe is sent with the Interest at 7000, the second one an interval later -/
example : ((exRun exCfg {} (exBefore ++ exAfter ++ [.interest [1] [1, 3] 0 true, .tick 59999, .interest [1] [1, 4] 0 true, .tick 1, .fire 67000 [1],
    .interest [1] [1, 5] 0 true])).map (·.probes)) = some [([1], 7000), ([1], 67000)] := by decide +kernel

/-- all hypotheses of `C129_probes_partial` are met by this run -/
example : ∃ s s1 s2, Proper exCfg ([] ++ Ev.interest [1] [1, 2] 3000 true :: exAfter) ∧ Runs exCfg {} [] s ∧ s.step exCfg (.interest [1] [1, 2] 3000 true) = some s1 ∧
    Runs exCfg s1 (exAfter ++ [.tick 53000]) s2 ∧ Ev.expire [1] ∉ exAfter ++ [.tick 53000] ∧ (∀ t, (t, [1]) ∈ s2.timers → s2.now < t) ∧
    (∀ u, ([1], u) ∈ s2.begun ∨ ([1], u) ∈ s2.probes → u + max 5000 exCfg.interval ≤ s2.now) ∧ s2.now = 60000 := by
  obtain ⟨s1, h1⟩ : ∃ s1, (({} : St Nat).step exCfg (.interest [1] [1, 2] 3000 true)) = some s1 := Option.isSome_iff_exists.mp (by decide +kernel)
  obtain ⟨s2, h2⟩ : ∃ s2, exRun exCfg {} (exBefore ++ (exAfter ++ [.tick 53000])) = some s2 := Option.isSome_iff_exists.mp (by decide +kernel)
  have h3 : exRun exCfg s1 (exAfter ++ [.tick 53000]) = some s2 := by
    rw [← h2]
    exact (exRun_cons h1).symm
  have ht : s2.timers = [] := by
    have : (exRun exCfg {} (exBefore ++ (exAfter ++ [.tick 53000]))).map (·.timers) = some [] := by decide +kernel
    rw [h2] at this; exact Option.some.inj this
  have hb : s2.begun = [([1], 0)] := by
    have : (exRun exCfg {} (exBefore ++ (exAfter ++ [.tick 53000]))).map (·.begun) = some [([1], 0)] := by decide +kernel
    rw [h2] at this; exact Option.some.inj this
  have hpr : s2.probes = [] := by
    have : (exRun exCfg {} (exBefore ++ (exAfter ++ [.tick 53000]))).map (·.probes) = some [] := by decide +kernel
    rw [h2] at this; exact Option.some.inj this
  have hn : s2.now = 60000 := by
    have : (exRun exCfg {} (exBefore ++ (exAfter ++ [.tick 53000]))).map (·.now) = some 60000 := by decide +kernel
    rw [h2] at this; exact Option.some.inj this
  refine ⟨{}, s1, s2, ⟨fun _ _ _ _ _ => rfl, fun _ _ _ => rfl⟩, rfl, h1, runs_of_exRun ?_ h3, ?_, ?_, ?_, hn⟩
  · intro e he s
    simp only [exAfter, List.cons_append, List.nil_append, List.mem_cons, List.not_mem_nil, or_false] at he
    rcases he with rfl | rfl | rfl | rfl | rfl <;> exact True.intro
  · simp [exAfter]
  · rw [ht]; simp
  · rw [hb, hpr, hn]
    intro u hu
    have : u = 0 := by simpa using hu
    subst this; show 0 + max 5000 60000 ≤ 60000; omega

/-! ### Where it fails -/

/-- When the strategy is chosen for names longer than the FIB entry (such as a default route, and ASF for one prefix), and for no prefix of it, nothing is ever
probed: the scheduled function looks for the measurements of the FIB entry's name. -/
theorem C129_never {c : Cfg α} {es : List (Ev α)} {s : St α} (hu : ∀ f i r o, Ev.interest f i r o ∈ es → ∀ n, n <+: f → c.under n = false) (hr : Runs c {} es s) :
    s.probes = [] := by
  have key : ∀ (es : List (Ev α)) (s0 : St α), Quiet c s0 → (∀ f i r o, Ev.interest f i r o ∈ es → ∀ n, n <+: f → c.under n = false) → Runs c s0 es s → Quiet c s := by
    intro es
    induction es with
    | nil => intro s0 h _ hr; cases hr; exact h
    | cons e es ih =>
      intro s0 h hu hr
      obtain ⟨s1, -, hs, hr⟩ := hr
      exact ih s1 (h.step (fun f i r o he => hu f i r o (by rw [he]; exact List.mem_cons_self)) hs) (fun f i r o he => hu f i r o (List.mem_cons_of_mem _ he)) hr
  exact (key es {} ⟨by simp, by simp, rfl⟩ hu hr).probes

/-- the default route, and ASF for `[1]`: Interests are forwarded, first probes are scheduled and run, and nothing is probed -/
def neverCfg : Cfg Nat := { exCfg with under := fun n => n.head? == some 1 }

example : ((exRun neverCfg {} [.interest [] [1, 2] 3000 true, .tick 3000, .fire 3000 [], .tick 100000, .interest [] [1, 2] 3000 true]).map
    (fun s => (s.begun, s.ents [1]))) = some ([([], 0)], some { due := false, first := true, expiry := 403000 }) ∧
    (∀ n, n <+: [] → neverCfg.under n = false) := by
  refine ⟨by decide +kernel, ?_⟩
  intro n hn
  rw [List.prefix_nil.mp hn]; rfl

/-- With a measurements lifetime that is allowed but shorter than the time to the first probe, the flag is kept less long than the timer: a second one is started for the
same FIB entry, and probes are sent at less than the interval. -/
def twiceCfg : Cfg Nat := { interval := 1000, lifetime := 2000, under := fun _ => true }
def twice : List (Ev Nat) :=
  [.interest [1] [1, 2] 5000 true, .tick 4000, .expire [1], .tick 1, .interest [1] [1, 3] 1499 true, .tick 999, .fire 5000 [1], .interest [1] [1, 4] 0 true,
   .tick 500, .fire 5500 [1], .interest [1] [1, 5] 0 true]

theorem C129_twice : twiceCfg.ok = true ∧ Proper twiceCfg twice ∧ ∃ s, Runs twiceCfg {} twice s ∧ s.probes = [([1], 5000), ([1], 5500)] ∧ ¬ Spaced twiceCfg.interval s.probes := by
  refine ⟨rfl, ⟨fun _ _ _ _ _ => rfl, fun _ _ _ => rfl⟩, ?_⟩
  obtain ⟨s1, h1⟩ : ∃ s1, exRun twiceCfg {} (twice.take 2) = some s1 := ⟨_, rfl⟩
  obtain ⟨s2, h2⟩ : ∃ s2, s1.step twiceCfg (.expire [1]) = some s2 := by
    have : ((exRun twiceCfg {} (twice.take 2)).bind (·.step twiceCfg (.expire [1]))).isSome = true := by decide +kernel
    rw [h1] at this
    exact Option.isSome_iff_exists.mp this
  have h12 : exRun twiceCfg {} twice = exRun twiceCfg s2 (twice.drop 3) := by
    have e : ∀ (a b : List (Ev Nat)) (s : St Nat), exRun twiceCfg s (a ++ b) = (exRun twiceCfg s a).bind (fun s => exRun twiceCfg s b) := by
      intro a b
      induction a with
      | nil => intro s; rfl
      | cons x a ih =>
        intro s
        simp only [List.cons_append, exRun, Option.bind_assoc]
        congr 1; funext s'; exact ih s'
    have := e (twice.take 2) (twice.drop 2) {}
    rw [List.take_append_drop, h1] at this
    rw [this]
    show (s1.step twiceCfg (.expire [1])).bind _ = _
    rw [h2]; rfl
  obtain ⟨s, h3⟩ : ∃ s, exRun twiceCfg s2 (twice.drop 3) = some s := by
    have : (exRun twiceCfg {} twice).isSome = true := by decide +kernel
    rw [h12] at this
    exact Option.isSome_iff_exists.mp this
  have hpr : s.probes = [([1], 5000), ([1], 5500)] := by
    have : (exRun twiceCfg {} twice).map (·.probes) = some [([1], 5000), ([1], 5500)] := by decide +kernel
    rw [h12, h3] at this; exact Option.some.inj this
  have hexp : ∀ e, s1.ents [1] = some e → ∀ x ∈ s1.timers, e.expiry ≤ x.1 := by
    have ha : (exRun twiceCfg {} (twice.take 2)).map (fun s => (s.ents [1], s.timers)) = some (some { first := true, expiry := 4000 }, [(5000, [1])]) := by decide +kernel
    rw [h1] at ha
    have ha := Option.some.inj ha
    intro e he x hx
    rw [show s1.timers = [(5000, [1])] from congrArg Prod.snd ha] at hx
    rw [show s1.ents [1] = _ from congrArg Prod.fst ha] at he
    cases he
    rw [List.mem_singleton.mp hx]
    decide
  have app : ∀ (a b : List (Ev Nat)) (x y z : St Nat), Runs twiceCfg x a y → Runs twiceCfg y b z → Runs twiceCfg x (a ++ b) z := by
    intro a b
    induction a with
    | nil => intro x y z h h'; cases h; exact h'
    | cons e a ih =>
      rintro x y z ⟨w, h1, h2, h3⟩ h'
      exact ⟨w, h1, h2, ih _ _ _ h3 h'⟩
  refine ⟨s, ?_, hpr, ?_⟩
  · have hA := runs_of_exRun (es := twice.take 2) (c := twiceCfg) (s := {}) ?_ h1
    · have hC := runs_of_exRun (es := twice.drop 3) (c := twiceCfg) ?_ h3
      · have hB : Runs twiceCfg s1 (Ev.expire [1] :: twice.drop 3) s := ⟨s2, hexp, h2, hC⟩
        exact app _ _ _ _ _ hA hB
      · intro e he s
        simp only [twice, List.drop, List.mem_cons, List.not_mem_nil, or_false] at he
        rcases he with rfl | rfl | rfl | rfl | rfl | rfl | rfl | rfl <;> first | trivial | (refine ⟨?_, rfl, ?_⟩ <;> decide)
    · intro e he s
      simp only [twice, List.take, List.mem_cons, List.not_mem_nil, or_false] at he
      rcases he with rfl | rfl <;> first | trivial | (refine ⟨?_, rfl, ?_⟩ <;> decide)
  · rw [hpr]
    intro h
    simp only [Spaced, List.pairwise_cons, List.mem_singleton, forall_eq] at h
    exact absurd h.1 (by decide)

end Verif.Ap
