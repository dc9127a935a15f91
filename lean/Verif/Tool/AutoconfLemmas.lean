import Verif.Tool.AutoconfSpec

namespace Verif.Ac

abbrev secondRoute (f : Nat) : Req := hubRoute ["localhop", "nfd"] f

def FlowOk (l : List Obs) : Flow → Prop
  | .canonize _ => True
  | .create u => .request (.faceCreate u) ∈ l
  | .register u f k => .request (.faceCreate u) ∈ l ∧ .face u f ∈ l ∧ (k = 0 ∨ k = 1 ∧ .granted (hubRoute [] f) ∈ l)

/-- What holds while the program runs, with `d` runs that are just being dealt with. -/
structure J (s : St) (d : Nat) : Prop where
  fresh : s.ended = none
  runs : starts s.log = completes s.log + s.flows.length + (if s.disc.isSome then 1 else 0) + d
  flow : ∀ x ∈ s.flows, FlowOk s.log x
  route : ∀ n f, .request (hubRoute n f) ∈ s.log → ∃ u, .request (.faceCreate u) ∈ s.log ∧ .face u f ∈ s.log
  yes : .complete true ∈ s.log → Connected s.log
  second : ∀ f, .granted (secondRoute f) ∈ s.log → .complete true ∈ s.log
  reg : ∀ n a b, s.disc = some (.reg n a b) → a + b < n
  timer : ∀ t, s.timer = some t → t ≤ s.now + 3600000
  alive : d = 0 → s.daemon = true → s.timer.isSome ∨ s.disc.isSome ∨ s.flows ≠ []
  once : s.daemon = false → starts s.log = 1 ∧ s.timer = none ∧ (.complete true ∈ s.log → s.code = 0) ∧ (.complete false ∈ s.log → s.code = 1)

/-- An observation that the invariant does not care about. -/
def Plain (o : Obs) : Prop :=
  o ≠ .started 0 ∧ (∀ b, o ≠ .complete b) ∧ (∀ n f, o ≠ .request (hubRoute n f)) ∧ ∀ f, o ≠ .granted (secondRoute f)

theorem Connected.mono {l m : List Obs} (h : Connected l) (hm : ∀ x ∈ l, x ∈ m) : Connected m := by
  obtain ⟨u, f, h1, h2, h3, h4⟩ := h
  exact ⟨u, f, hm _ h1, hm _ h2, hm _ h3, hm _ h4⟩

theorem FlowOk.mono {l m : List Obs} {x : Flow} (h : FlowOk l x) (hm : ∀ x ∈ l, x ∈ m) : FlowOk m x := by
  cases x with
  | canonize => trivial
  | create => exact hm _ h
  | register u f k =>
    obtain ⟨h1, h2, h3⟩ := h
    exact ⟨hm _ h1, hm _ h2, h3.imp id (fun h => ⟨h.1, hm _ h.2⟩)⟩

theorem starts_append (l m : List Obs) : starts (l ++ m) = starts l + starts m := List.countP_append
theorem completes_append (l m : List Obs) : completes (l ++ m) = completes l + completes m := List.countP_append

theorem starts_plain {m : List Obs} (h : ∀ o ∈ m, Plain o) : starts m = 0 := by
  unfold starts
  rw [List.countP_eq_zero]
  intro o ho
  have := (h o ho).1
  simpa using this

theorem completes_plain {m : List Obs} (h : ∀ o ∈ m, Plain o) : completes m = 0 := by
  unfold completes
  rw [List.countP_eq_zero]
  intro o ho
  have := (h o ho).2.1
  simp [this true, this false]

theorem J.plain {s : St} {d : Nat} (h : J s d) {m : List Obs} (hm : ∀ o ∈ m, Plain o) : J (s.note m) d := by
  have hin : ∀ x ∈ s.log, x ∈ s.log ++ m := fun x hx => List.mem_append_left _ hx
  have hc : ∀ b, .complete b ∈ s.log ++ m → .complete b ∈ s.log := fun b hb =>
    (List.mem_append.1 hb).elim id (fun hb => absurd rfl ((hm _ hb).2.1 b))
  refine ⟨h.fresh, ?_, fun x hx => (h.flow x hx).mono hin, ?_, fun hy => (h.yes (hc _ hy)).mono hin, ?_, h.reg, h.timer, h.alive, ?_⟩
  · show starts (s.log ++ m) = completes (s.log ++ m) + _ + _ + _
    rw [starts_append, completes_append, starts_plain hm, completes_plain hm]
    exact h.runs
  · intro n f hf
    rcases List.mem_append.1 hf with hf | hf
    · obtain ⟨u, h1, h2⟩ := h.route n f hf
      exact ⟨u, hin _ h1, hin _ h2⟩
    · exact absurd rfl ((hm _ hf).2.2.1 n f)
  · intro f hf
    rcases List.mem_append.1 hf with hf | hf
    · exact hin _ (h.second f hf)
    · exact absurd rfl ((hm _ hf).2.2.2 f)
  · intro hd
    obtain ⟨h1, h2, h3, h4⟩ := h.once hd
    refine ⟨?_, h2, fun hy => h3 (hc _ hy), fun hy => h4 (hc _ hy)⟩
    show starts (s.log ++ m) = 1
    rw [starts_append, starts_plain hm, h1]

/-- In a program that runs once, nothing has completed as long as something is going on. -/
theorem J.quiet {s : St} {d : Nat} (h : J s d) (hd : s.daemon = false) (hb : 0 < s.flows.length + (if s.disc.isSome then 1 else 0) + d) :
    ∀ b, .complete b ∉ s.log := by
  intro b hb'
  have h1 := h.runs
  rw [(h.once hd).1] at h1
  have : 0 < completes s.log := by
    unfold completes
    rw [List.countP_pos_iff]
    exact ⟨_, hb', by cases b <;> rfl⟩
  omega

theorem J.complete {s : St} {d : Nat} (h : J s (d + 1)) (b : Bool) (hb : b = true → Connected s.log) : J (complete s b) d := by
  have hin : ∀ x ∈ s.log, x ∈ s.log ++ [.complete b] := fun x hx => List.mem_append_left _ hx
  have hruns : starts (s.log ++ [.complete b]) = completes (s.log ++ [.complete b]) + s.flows.length + (if s.disc.isSome then 1 else 0) + d := by
    have := h.runs
    have e1 : starts [.complete b] = 0 := by cases b <;> rfl
    have e2 : completes [.complete b] = 1 := by cases b <;> rfl
    rw [starts_append, completes_append, e1, e2]; omega
  have hroute : ∀ n f, .request (hubRoute n f) ∈ s.log ++ [.complete b] → ∃ u, .request (.faceCreate u) ∈ s.log ++ [.complete b] ∧ .face u f ∈ s.log ++ [.complete b] := by
    intro n f hf
    rcases List.mem_append.1 hf with hf | hf
    · obtain ⟨u, h1, h2⟩ := h.route n f hf
      exact ⟨u, hin _ h1, hin _ h2⟩
    · cases List.mem_singleton.1 hf
  have hyes : .complete true ∈ s.log ++ [.complete b] → Connected (s.log ++ [.complete b]) := by
    intro hy
    rcases List.mem_append.1 hy with hy | hy
    · exact (h.yes hy).mono hin
    · cases List.mem_singleton.1 hy
      exact (hb rfl).mono hin
  have hsecond : ∀ f, .granted (secondRoute f) ∈ s.log ++ [.complete b] → .complete true ∈ s.log ++ [.complete b] := by
    intro f hf
    rcases List.mem_append.1 hf with hf | hf
    · exact hin _ (h.second f hf)
    · cases List.mem_singleton.1 hf
  unfold Ac.complete St.note
  cases hd : s.daemon with
  | true =>
    simp only [if_true]
    refine ⟨h.fresh, hruns, fun x hx => (h.flow x hx).mono hin, hroute, hyes, hsecond, h.reg, ?_, fun _ _ => Or.inl rfl, fun hc => ?_⟩
    · intro t ht; cases ht; exact Nat.le_refl _
    · cases hc
  | false =>
    obtain ⟨h1, h2, -, -⟩ := h.once hd
    have hq := h.quiet hd (by omega)
    simp only [Bool.false_eq_true, if_false]
    refine ⟨h.fresh, hruns, fun x hx => (h.flow x hx).mono hin, hroute, hyes, hsecond, h.reg, h.timer, fun _ hc => ?_, fun _ => ⟨?_, h2, ?_, ?_⟩⟩
    · cases hc
    · show starts (s.log ++ _) = 1
      rw [starts_append, h1]
      cases b <;> rfl
    · intro hy
      rcases List.mem_append.1 hy with hy | hy
      · exact absurd hy (hq true)
      · cases List.mem_singleton.1 hy; rfl
    · intro hy
      rcases List.mem_append.1 hy with hy | hy
      · exact absurd hy (hq false)
      · cases List.mem_singleton.1 hy; rfl

theorem J.connect {s : St} {d : Nat} (h : J s (d + 1)) (u : Text) : J (connect s u) d := by
  have h0 : J { s with flows := s.flows ++ [.canonize u] } d := by
    refine ⟨h.fresh, ?_, ?_, h.route, h.yes, h.second, h.reg, h.timer, fun _ _ => Or.inr (Or.inr (by simp)), h.once⟩
    · have := h.runs
      show starts s.log = completes s.log + (s.flows ++ [Flow.canonize u]).length + (if s.disc.isSome then 1 else 0) + d
      rw [List.length_append, List.length_singleton]; omega
    · intro x hx
      rcases List.mem_append.1 hx with hx | hx
      · exact h.flow x hx
      · rw [List.mem_singleton.1 hx]; trivial
  exact h0.plain (by
    intro o ho
    rw [List.mem_singleton.1 ho]
    exact ⟨by simp, by simp, by simp, by simp⟩)

/-- The program has ended. -/
structure Over (s : St) : Prop where
  state : ∃ s0 d, J s0 d ∧ s = { s0 with ended := s.ended } ∧
    ((s.ended = some 1 ∧ 0 < s0.flows.length + (if s0.disc.isSome then 1 else 0) + d) ∨
     (s.ended = some s0.code ∧ s0.daemon = false ∧ d = 0 ∧ s0.disc = none ∧ s0.flows = []) ∨ (s.ended = some 0 ∧ s0.daemon = true))

theorem J.raise {s : St} {d : Nat} (h : J s d) (hb : 0 < s.flows.length + (if s.disc.isSome then 1 else 0) + d) : Over (raise s) :=
  ⟨s, d, h, rfl, Or.inl ⟨rfl, hb⟩⟩

def Inv (s : St) : Prop := J s 0 ∨ Over s

theorem plain_started (k : Nat) : ∀ o ∈ [Obs.started (k + 1)], Plain o := by
  intro o ho
  rw [List.mem_singleton.1 ho]
  exact ⟨by simp, by simp, by simp, by simp⟩

theorem J.rest {parses : Text → Bool} : ∀ {l : List Outcome} {s : St} {k : Nat}, J s 1 →
    (J (rest parses s (k + 1) l) 0 ∨ (.raised ∈ l ∧ Over (rest parses s (k + 1) l)))
  | [], s, k, h => Or.inl (h.complete false (fun h => by cases h))
  | o :: l, s, k, h => by
    have h1 := h.plain (plain_started k)
    unfold Ac.rest
    cases o with
    | raised => exact Or.inr ⟨List.mem_cons_self .., h1.raise (by omega)⟩
    | failed => exact (J.rest h1).imp id (fun h => ⟨List.mem_cons_of_mem _ h.1, h.2⟩)
    | uri t =>
      by_cases ht : parses t = true
      · simp only [if_pos ht]; exact Or.inl (h1.connect t)
      · simp only [if_neg ht]; exact (J.rest h1).imp id (fun h => ⟨List.mem_cons_of_mem _ h.1, h.2⟩)

/-- The first stage is no longer in progress. -/
theorem J.leave {s : St} (h : J s 0) (hd : s.disc.isSome) : J { s with disc := none } 1 := by
  refine ⟨h.fresh, ?_, h.flow, h.route, h.yes, h.second, fun _ _ _ hc => (by cases hc), h.timer, fun hc => (by cases hc), h.once⟩
  have := h.runs
  rw [if_pos hd] at this
  simp only [Option.isSome_none, Bool.false_eq_true, if_false]
  omega

/-- The first stage goes on. -/
theorem J.proceed {s : St} (h : J s 0) (hd : s.disc.isSome) (x : Disc) (hx : ∀ n a b, x = .reg n a b → a + b < n) : J { s with disc := some x } 0 := by
  refine ⟨h.fresh, ?_, h.flow, h.route, h.yes, h.second, fun n a b hc => hx n a b (Option.some.inj hc), h.timer, fun _ _ => Or.inr (Or.inl rfl), h.once⟩
  have := h.runs
  rw [if_pos hd] at this
  simp only [Option.isSome_some, if_true]
  exact this

theorem J.discFailed {parses : Text → Bool} {s : St} (h : J s 0) (hd : s.disc.isSome) (o : Others) :
    J (discFailed parses s o) 0 ∨ ((o.search = .raised ∨ o.fch = .raised ∨ o.identity = .raised) ∧ Over (discFailed parses s o)) := by
  rcases (h.leave hd).rest (parses := parses) (l := [o.search, o.fch, o.identity]) (k := 0) with h | ⟨h1, h2⟩
  · exact Or.inl h
  · refine Or.inr ⟨?_, h2⟩
    simp only [List.mem_cons, List.not_mem_nil, or_false] at h1
    exact h1.imp Eq.symm (Or.imp Eq.symm Eq.symm)

theorem J.afterReg {parses : Text → Bool} {s : St} (h : J s 0) (hd : s.disc.isSome) (n a b : Nat) (o : Others) :
    J (afterReg parses s n a b o) 0 ∨ ((o.search = .raised ∨ o.fch = .raised ∨ o.identity = .raised) ∧ Over (afterReg parses s n a b o)) := by
  unfold Ac.afterReg
  split
  · rename_i hlt
    exact Or.inl (h.proceed hd _ (fun n' a' b' he => by cases he; exact hlt))
  · split
    · refine Or.inl ((h.proceed hd .strategy (fun _ _ _ he => by cases he)).plain ?_)
      intro x hx
      rw [List.mem_singleton.1 hx]
      exact ⟨by simp, by simp, by simp, by simp⟩
    · exact h.discFailed hd o

theorem J.drop {s : St} (h : J s 0) {i : Nat} (hi : i < s.flows.length) : J { s with flows := s.flows.eraseIdx i } 1 := by
  refine ⟨h.fresh, ?_, fun x hx => h.flow x (List.mem_of_mem_eraseIdx hx), h.route, h.yes, h.second, h.reg, h.timer, fun hc => (by cases hc), h.once⟩
  have := h.runs
  show starts s.log = completes s.log + (s.flows.eraseIdx i).length + (if s.disc.isSome then 1 else 0) + 1
  rw [List.length_eraseIdx_of_lt hi]
  omega

theorem J.change {s : St} {d : Nat} (h : J s d) {i : Nat} {x : Flow} (hx : FlowOk s.log x) : J { s with flows := s.flows.set i x } d := by
  refine ⟨h.fresh, ?_, ?_, h.route, h.yes, h.second, h.reg, h.timer, ?_, h.once⟩
  · have := h.runs
    simp only [List.length_set]
    exact this
  · intro y hy
    rcases List.mem_or_eq_of_mem_set hy with hy | rfl
    · exact h.flow y hy
    · exact hx
  · intro hd hdm
    refine (h.alive hd hdm).imp id (Or.imp id (fun hf hc => hf ?_))
    have : (s.flows.set i x).length = 0 := by
      have hc' : s.flows.set i x = [] := hc
      rw [hc']; rfl
    rw [List.length_set] at this
    exact List.length_eq_zero_iff.1 this

/-- A request for a route on a hub's face. -/
theorem J.ask {s : St} (h : J s 0) (n : List String) {u : Text} {f : Nat} (hu : .request (.faceCreate u) ∈ s.log) (hf : .face u f ∈ s.log) :
    J (s.note [.request (hubRoute n f)]) 0 := by
  have hin : ∀ x ∈ s.log, x ∈ s.log ++ [.request (hubRoute n f)] := fun x hx => List.mem_append_left _ hx
  have hc : ∀ b, .complete b ∈ s.log ++ [.request (hubRoute n f)] → .complete b ∈ s.log := fun b hb =>
    (List.mem_append.1 hb).elim id (fun hb => by cases List.mem_singleton.1 hb)
  refine ⟨h.fresh, ?_, fun x hx => (h.flow x hx).mono hin, ?_, fun hy => (h.yes (hc _ hy)).mono hin, ?_, h.reg, h.timer, h.alive, ?_⟩
  · show starts (s.log ++ _) = completes (s.log ++ _) + _ + _ + _
    rw [starts_append, completes_append]
    exact h.runs
  · intro n' f' hf'
    rcases List.mem_append.1 hf' with hf' | hf'
    · obtain ⟨u', h1, h2⟩ := h.route n' f' hf'
      exact ⟨u', hin _ h1, hin _ h2⟩
    · cases List.mem_singleton.1 hf'
      exact ⟨u, hin _ hu, hin _ hf⟩
  · intro f' hf'
    rcases List.mem_append.1 hf' with hf' | hf'
    · exact hin _ (h.second f' hf')
    · cases List.mem_singleton.1 hf'
  · intro hd
    obtain ⟨h1, h2, h3, h4⟩ := h.once hd
    refine ⟨?_, h2, fun hy => h3 (hc _ hy), fun hy => h4 (hc _ hy)⟩
    show starts (s.log ++ _) = 1
    rw [starts_append, h1]; rfl

/-- The second route is granted, which completes the run. -/
theorem J.finish {s : St} (h : J s 0) {i : Nat} {u : Text} {f : Nat} (hi : s.flows[i]? = some (.register u f 1)) :
    J (Ac.complete { s.note [.granted (secondRoute f)] with flows := s.flows.eraseIdx i } true) 0 := by
  have hlt := (List.getElem?_eq_some_iff.1 hi).1
  have hm := List.mem_of_getElem? hi
  obtain ⟨h1, h2, h3⟩ := h.flow _ hm
  have h3 : .granted (hubRoute [] f) ∈ s.log := h3.elim (fun h => by cases h) (·.2)
  -- completing first, noting the grant in front of it
  have hin : ∀ x ∈ s.log, x ∈ (s.log ++ [.granted (secondRoute f)]) ++ [.complete true] := fun x hx => List.mem_append_left _ (List.mem_append_left _ hx)
  have hcon : Connected ((s.log ++ [.granted (secondRoute f)]) ++ [.complete true]) :=
    ⟨u, f, hin _ h1, hin _ h2, hin _ h3, List.mem_append_left _ (List.mem_append_right _ (List.mem_singleton_self _))⟩
  have hruns : starts (s.log ++ [.granted (secondRoute f)] ++ [.complete true]) =
      completes (s.log ++ [.granted (secondRoute f)] ++ [.complete true]) + (s.flows.eraseIdx i).length + (if s.disc.isSome then 1 else 0) + 0 := by
    have := h.runs
    have e3 : starts [.complete true] = 0 := by decide
    have e4 : completes [.complete true] = 1 := by decide
    rw [starts_append, starts_append, completes_append, completes_append, List.length_eraseIdx_of_lt hlt]
    have e5 : starts [.granted (secondRoute f)] = 0 := rfl
    have e6 : completes [.granted (secondRoute f)] = 0 := rfl
    rw [e5, e6, e3, e4]; omega
  have hroute : ∀ n g, .request (hubRoute n g) ∈ s.log ++ [.granted (secondRoute f)] ++ [.complete true] →
      ∃ u, .request (.faceCreate u) ∈ s.log ++ [.granted (secondRoute f)] ++ [.complete true] ∧ .face u g ∈ s.log ++ [.granted (secondRoute f)] ++ [.complete true] := by
    intro n g hg
    simp only [List.mem_append, List.mem_singleton, reduceCtorEq, or_false] at hg
    obtain ⟨u', k1, k2⟩ := h.route n g hg
    exact ⟨u', hin _ k1, hin _ k2⟩
  have hlast : .complete true ∈ s.log ++ [.granted (secondRoute f)] ++ [.complete true] := List.mem_append_right _ (List.mem_singleton_self _)
  have hflow : ∀ x ∈ s.flows.eraseIdx i, FlowOk (s.log ++ [.granted (secondRoute f)] ++ [.complete true]) x :=
    fun x hx => (h.flow x (List.mem_of_mem_eraseIdx hx)).mono hin
  unfold Ac.complete St.note
  cases hd : s.daemon with
  | true =>
    simp only [if_true]
    refine ⟨h.fresh, hruns, hflow, hroute, fun _ => hcon, fun _ _ => hlast, h.reg, ?_, fun _ _ => Or.inl rfl, fun hc => ?_⟩
    · intro t ht; cases ht; exact Nat.le_refl _
    · cases hc
  | false =>
    obtain ⟨k1, k2, -, -⟩ := h.once hd
    have hq := h.quiet hd (by have : 0 < s.flows.length := by omega
                              omega)
    simp only [Bool.false_eq_true, if_false]
    refine ⟨h.fresh, hruns, hflow, hroute, fun _ => hcon, fun _ _ => hlast, h.reg, h.timer, fun _ hc => ?_, fun _ => ⟨?_, k2, fun _ => rfl, ?_⟩⟩
    · cases hc
    · show starts (s.log ++ _ ++ _) = 1
      rw [starts_append, starts_append, k1]; rfl
    · intro hy
      simp only [List.mem_append, List.mem_singleton, reduceCtorEq, or_false, Obs.complete.injEq, Bool.false_eq_true] at hy
      exact absurd hy (hq false)

theorem J.registerPrefixes {s : St} (h : J s 0) {i : Nat} {u : Text} {f : Nat} {n : List String} {k : Nat} (hk : hubPrefixes[k]? = some n)
    (hx : FlowOk s.log (.register u f k)) : J (registerPrefixes s i u f k) 0 := by
  unfold Ac.registerPrefixes
  rw [hk]
  exact (h.change (i := i) hx).ask n hx.1 hx.2.1

theorem step_inv {parses : Text → Bool} {s s' : St} {ev : Event} (h : J s 0) (hs : step parses s ev = some s') :
    J s' 0 ∨ (Over s' ∧ (Raises ev ∨ ev = .idle ∨ ev = .terminate ∨ ev = .fire ∧ s.disc.isSome)) := by
  have hr : ∀ {e : Event} {o : Others} {x : St}, (J x 0 ∨ ((o.search = .raised ∨ o.fch = .raised ∨ o.identity = .raised) ∧ Over x)) →
      (o.search = .raised ∨ o.fch = .raised ∨ o.identity = .raised → Raises e) →
      J x 0 ∨ (Over x ∧ (Raises e ∨ e = .idle ∨ e = .terminate ∨ e = .fire ∧ s.disc.isSome)) := by
    intro e o x hx he
    exact hx.imp id (fun h => ⟨h.2, Or.inl (he h.1)⟩)
  have hbusy : ∀ {x : Disc}, s.disc = some x → s.disc.isSome := fun h => by rw [h]; rfl
  unfold step at hs
  rw [if_neg (by rw [h.fresh]; decide)] at hs
  cases ev with
  | fire =>
    dsimp only at hs
    split at hs
    · rename_i t ht
      split at hs
      · injection hs with hs
        subst hs
        have hdm : s.daemon = true := by
          cases hc : s.daemon with
          | true => rfl
          | false => rw [(h.once hc).2.1] at ht; cases ht
        unfold runOnce
        split
        · rename_i hd
          have hd' : s.disc.isSome := hd
          refine Or.inr ⟨J.raise (s := { s with timer := none }) (d := 0) ⟨h.fresh, h.runs, h.flow, h.route, h.yes, h.second, h.reg, (fun _ hc => by cases hc),
            fun _ _ => Or.inr (Or.inl hd'), fun hc => ?_⟩ ?_, Or.inr (Or.inr (Or.inr ⟨rfl, hd'⟩))⟩
          · have : s.daemon = false := hc
            rw [hdm] at this; cases this
          · show 0 < s.flows.length + (if s.disc.isSome then 1 else 0) + 0
            rw [if_pos hd']; omega
        · rename_i hd
          have hd' : ¬s.disc.isSome := hd
          refine Or.inl ?_
          have hin : ∀ x ∈ s.log, x ∈ s.log ++ [.started 0, .request .faceQuery] := fun x hx => List.mem_append_left _ hx
          have hmem : ∀ {x : Obs}, x ∈ s.log ++ [.started 0, .request .faceQuery] → x ≠ .started 0 → x ≠ .request .faceQuery → x ∈ s.log := by
            intro x hx h1 h2
            simp only [List.mem_append, List.mem_cons, List.not_mem_nil, or_false] at hx
            exact hx.elim id (fun h => absurd h (by simp [h1, h2]))
          refine ⟨h.fresh, ?_, fun x hx => (h.flow x hx).mono hin, ?_, ?_, ?_, (fun _ _ _ hc => by cases hc), (fun _ hc => by cases hc),
            fun _ _ => Or.inr (Or.inl rfl), fun hc => ?_⟩
          · show starts (s.log ++ [.started 0, .request .faceQuery]) = completes (s.log ++ [.started 0, .request .faceQuery]) + s.flows.length + 1 + 0
            have := h.runs
            rw [if_neg hd'] at this
            have e1 : starts [.started 0, .request .faceQuery] = 1 := by decide
            have e2 : completes [.started 0, .request .faceQuery] = 0 := by decide
            rw [starts_append, completes_append, e1, e2]; omega
          · intro n f hf
            obtain ⟨u, h1, h2⟩ := h.route n f (hmem hf (by simp) (by simp))
            exact ⟨u, hin _ h1, hin _ h2⟩
          · exact fun hy => (h.yes (hmem hy (by simp) (by simp))).mono hin
          · exact fun f hf => hin _ (h.second f (hmem hf (by simp) (by simp)))
          · have : s.daemon = false := hc
            rw [hdm] at this; cases this
      · cases hs
    · cases hs
  | queried fs o =>
    dsimp only at hs
    split at hs
    · rename_i hq
      split at hs <;> cases hs
      · exact hr (h.discFailed (hbusy hq) o) id
      · exact hr ((h.plain (by
          intro x hx
          rw [List.mem_singleton.1 hx]
          exact ⟨by simp, by simp, by simp, by simp⟩)).discFailed (hbusy hq) o) id
      · rename_i f l
        refine Or.inl ((h.proceed (hbusy hq) (.reg (f :: l).length 0 0) (fun n a b he => by cases he; simp)).plain ?_)
        intro x hx
        rcases List.mem_cons.1 hx with rfl | hx
        · exact ⟨by simp, by simp, by simp, by simp⟩
        · obtain ⟨g, -, rfl⟩ := List.mem_map.1 hx
          exact ⟨by simp, by simp, by simp, by simp⟩
    · cases hs
  | registered ok o =>
    dsimp only at hs
    split at hs
    · rename_i n a b hq
      cases hs
      cases ok
      · exact hr (h.afterReg (hbusy hq) n a (b + 1) o) id
      · exact hr (h.afterReg (hbusy hq) n (a + 1) b o) id
    · cases hs
  | strategySet ok o =>
    dsimp only at hs
    split at hs
    · rename_i hq
      cases hs
      cases ok
      · exact hr (h.discFailed (hbusy hq) o) id
      · refine Or.inl ((h.proceed (hbusy hq) .data (fun _ _ _ he => by cases he)).plain ?_)
        intro x hx
        simp only [List.mem_cons, List.not_mem_nil, or_false] at hx
        rcases hx with rfl | rfl <;> exact ⟨by simp, by simp, by simp, by simp⟩
    · cases hs
  | hubData c o =>
    dsimp only at hs
    split at hs
    · rename_i hq
      cases c with
      | malformed =>
        cases hs
        exact Or.inr ⟨h.raise (by rw [if_pos (hbusy hq)]; omega), Or.inl trivial⟩
      | noUri => cases hs; exact hr (h.discFailed (hbusy hq) o) id
      | uri t =>
        cases hs
        by_cases ht : parses t = true
        · rw [if_pos ht]; exact Or.inl ((h.leave (hbusy hq)).connect t)
        · rw [if_neg ht]; exact hr (h.discFailed (hbusy hq) o) id
    · cases hs
  | hubLost o =>
    dsimp only at hs
    split at hs
    · rename_i hq
      cases hs
      exact hr (h.discFailed (hbusy hq) o) id
    · cases hs
  | canonized i u =>
    dsimp only at hs
    split at hs
    · rename_i hi
      have hlt := (List.getElem?_eq_some_iff.1 hi).1
      split at hs <;> cases hs
      · rename_i u
        refine Or.inl ?_
        have h1 : J (s.note [.request (.faceCreate u)]) 0 := h.plain (by
          intro x hx
          rw [List.mem_singleton.1 hx]
          exact ⟨by simp, by simp, by simp, by simp⟩)
        exact h1.change (i := i) (x := .create u) (List.mem_append_right _ (List.mem_singleton_self _))
      · exact Or.inl ((h.drop hlt).complete false (fun h => by cases h))
    · cases hs
  | created i r =>
    dsimp only at hs
    split at hs
    · rename_i u hi
      have hlt := (List.getElem?_eq_some_iff.1 hi).1
      have hu := h.flow _ (List.mem_of_getElem? hi)
      have hreg : ∀ f, J (Ac.registerPrefixes (s.note [.face u f]) i u f 0) 0 := by
        intro f
        have h1 : J (s.note [.face u f]) 0 := h.plain (by
          intro x hx
          rw [List.mem_singleton.1 hx]
          exact ⟨by simp, by simp, by simp, by simp⟩)
        exact h1.registerPrefixes (n := []) rfl ⟨List.mem_append_left _ hu, List.mem_append_right _ (List.mem_singleton_self _), Or.inl rfl⟩
      split at hs <;> cases hs
      · exact Or.inl (hreg _)
      · exact Or.inl (hreg _)
      · exact Or.inr ⟨h.raise (by omega), Or.inl trivial⟩
      · exact Or.inl ((h.drop hlt).complete false (fun h => by cases h))
    · cases hs
  | routed i ok =>
    dsimp only at hs
    split at hs
    · rename_i u f k hi
      have hlt := (List.getElem?_eq_some_iff.1 hi).1
      obtain ⟨h1, h2, h3⟩ := h.flow _ (List.mem_of_getElem? hi)
      split at hs <;> cases hs
      · refine Or.inl ?_
        rcases h3 with rfl | ⟨rfl, h3⟩
        · have hj : J (s.note [.granted (hubRoute [] f)]) 0 := h.plain (by
            intro x hx
            rw [List.mem_singleton.1 hx]
            exact ⟨by simp, by simp, by simp, by simp⟩)
          exact hj.registerPrefixes (n := ["localhop", "nfd"]) rfl ⟨List.mem_append_left _ h1, List.mem_append_left _ h2,
            Or.inr ⟨rfl, List.mem_append_right _ (List.mem_singleton_self _)⟩⟩
        · exact h.finish hi
      · exact Or.inl ((h.drop hlt).complete false (fun h => by cases h))
    · cases hs
  | networkChanged =>
    dsimp only at hs
    split at hs
    · rename_i hd
      cases hs
      refine Or.inl ⟨h.fresh, h.runs, h.flow, h.route, h.yes, h.second, h.reg, ?_, fun _ _ => Or.inl rfl, fun hc => ?_⟩
      · intro t ht
        cases ht
        show s.now + 5000 ≤ s.now + 3600000
        omega
      · have : s.daemon = false := hc
        rw [hd] at this; cases this
    · cases hs
  | terminate =>
    dsimp only at hs
    split at hs
    · rename_i hd
      cases hs
      exact Or.inr ⟨⟨s, 0, h, rfl, Or.inr (Or.inr ⟨rfl, hd⟩)⟩, Or.inr (Or.inr (Or.inl rfl))⟩
    · cases hs
  | idle =>
    dsimp only at hs
    split at hs
    · rename_i hd
      cases hs
      simp only [Bool.and_eq_true, Bool.not_eq_true', Option.isNone_iff_eq_none, List.isEmpty_iff] at hd
      exact Or.inr ⟨⟨s, 0, h, rfl, Or.inr (Or.inl ⟨rfl, hd.1.1, rfl, hd.1.2, hd.2⟩)⟩, Or.inr (Or.inl rfl)⟩
    · cases hs
  | tick dt =>
    dsimp only at hs
    cases hs
    refine Or.inl ⟨h.fresh, h.runs, h.flow, h.route, h.yes, h.second, h.reg, ?_, h.alive, h.once⟩
    intro t ht
    have := h.timer t ht
    show t ≤ s.now + dt + 3600000
    omega

theorem over_stuck {parses : Text → Bool} {s : St} (h : Over s) (ev : Event) : step parses s ev = none := by
  obtain ⟨s0, d, -, -, h⟩ := h
  have : s.ended.isSome := by
    rcases h with ⟨h, -⟩ | ⟨h, -⟩ | ⟨h, -⟩ <;> rw [h] <;> rfl
  unfold step
  rw [if_pos this]

theorem init_inv (daemon : Bool) : J (init daemon) 0 := by
  cases daemon
  · exact ⟨rfl, rfl, by simp [init, runOnce, St.note], by simp [init, runOnce, St.note], by simp [init, runOnce, St.note], by simp [init, runOnce, St.note],
      by simp [init, runOnce, St.note], by simp [init, runOnce, St.note], by simp [init, runOnce, St.note], fun _ => ⟨rfl, rfl, fun _ => rfl, by simp [init, runOnce, St.note]⟩⟩
  · exact ⟨rfl, rfl, by simp [init], by simp [init], by simp [init], by simp [init], by simp [init], by simp [init], by simp [init], by simp [init]⟩

theorem run_inv {parses : Text → Bool} : ∀ {l : List Event} {s s' : St}, J s 0 → run parses s l = some s' → Inv s'
  | [], s, s', h, hr => by cases hr; exact Or.inl h
  | e :: l, s, s', h, hr => by
    simp only [run, Option.bind_eq_some_iff] at hr
    obtain ⟨s1, h1, h2⟩ := hr
    rcases step_inv h h1 with h3 | ⟨h3, -⟩
    · exact run_inv h3 h2
    · cases l with
      | nil => cases h2; exact Or.inr h3
      | cons e' l =>
        simp only [run, over_stuck h3, Option.bind_none] at h2
        cases h2

end Verif.Ac
