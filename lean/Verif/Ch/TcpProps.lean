/-
C92: connecting through a TCP channel. C93: accepting connections.
-/
import Verif.Ch.TcpReq

namespace Verif.Ch
open Verif.Tp (TState Persist bind_ok)
open Verif.Dg (unique_of_keys mem_of_lookup not_mem_of_lookup)

/-- The state after a run satisfies a test. -/
def okWith (r : Except Fault Chan) (p : Chan → Bool) : Bool :=
  match r with
  | .ok c => p c
  | .error _ => false

theorem okWith_ex {r : Except Fault Chan} {p : Chan → Bool} (h : okWith r p = true) : ∃ c, r = .ok c ∧ p c = true := by
  cases r with
  | error e => cases h
  | ok c => exact ⟨c, rfl, h⟩

def errIs (r : Except Fault Chan) (f : Fault) : Bool :=
  match r with
  | .ok _ => false
  | .error g => g == f

theorem errIs_eq {r : Except Fault Chan} {f : Fault} (h : errIs r f = true) : r = .error f := by
  cases r with
  | ok c => cases h
  | error g => simp only [errIs, beq_iff_eq] at h; rw [h]

/-- A channel as NFD uses it: 8000 milliseconds, messages of level TRACE are not logged. -/
def plain : Cfg := ⟨false, 8000, id⟩

/-! ### C92: connecting -/

/-- C92: a channel never has two faces for one remote endpoint that are not CLOSED. -/
theorem C92_one_face (cfg : Cfg) (es : List Event) (c : Chan) (h : run cfg Chan.init es = .ok c) (j k : Nat) (f g : Face) (hf : c.faces[j]? = some f)
    (hg : c.faces[k]? = some g) (he : f.ep = g.ep) (hfs : f.tp.state ≠ .closed) (hgs : g.tp.state ≠ .closed) : j = k := by
  have hi := finv_run h
  exact unique_of_keys hi.keys ((hi.map f.ep j).2 ⟨f, hf, rfl, hfs⟩) ((hi.map f.ep k).2 ⟨g, hg, he.symm, hgs⟩)

/-- C92: what C52, C53 and C79 say about TCP transports holds for each face of the channel. -/
theorem C92_transports (cfg : Cfg) (es : List Event) (c : Chan) (h : run cfg Chan.init es = .ok c) (k : Nat) (f : Face) (hf : c.faces[k]? = some f) :
    ∃ p es', Tp.run (Tp.init true p) es' = .ok f.tp :=
  (finv_run h).reach k f hf

/-- The `i`-th request is the `i`-th element of `reqs`. -/
theorem C92_requests (cfg : Cfg) (es : List Event) (c : Chan) (h : run cfg Chan.init es = .ok c) : c.reqs.map (·.ep) = requests es := by
  have hset : ∀ (l : List Attempt) (i : Nat) (a b : Attempt), l[i]? = some a → b.ep = a.ep → (l.set i b).map (·.ep) = l.map (·.ep) := by
    intro l i a b ha hb
    rw [List.map_set, hb]
    apply List.ext_getElem?
    intro j
    rw [List.getElem?_set]
    split
    · rename_i hj
      subst hj
      have := (List.getElem?_eq_some_iff.1 ha).1
      rw [if_pos (by simpa using this), List.getElem?_map, ha]
      rfl
    · rfl
  have hconn : ∀ {c c' : Chan} {i : Nat} {a : Attempt} {r : Res}, c.reqs[i]? = some a → handleConnect cfg c i a r = .ok c' →
      c'.reqs.map (·.ep) = c.reqs.map (·.ep) := by
    intro c c' i a r ha e
    have h0 := hset c.reqs i a { a with conn := .finished, timer := none } ha rfl
    rcases handleConnect_cases e with ⟨_, rfl⟩ | ⟨_, rfl⟩ | ⟨q, q', _, _, hc⟩
    · exact h0
    · exact h0
    · obtain ⟨_, h2, _⟩ := createFace_req hc
      rw [h2]; exact h0
  have hacc : ∀ {c c' : Chan} {x : Option (Nat × Nat)}, handleAccept cfg c x = .ok c' → c'.reqs = c.reqs := by
    intro c c' x e
    rcases handleAccept_cases e with ⟨_, rfl⟩ | ⟨ep, q, q', c1, _, _, hc, rfl⟩
    · rfl
    · exact (createFace_acceptor hc).2.1
  have key : ∀ (es : List Event) (c0 c : Chan), run cfg c0 es = .ok c → c.reqs.map (·.ep) = c0.reqs.map (·.ep) ++ requests es := by
    intro es
    induction es with
    | nil => intro c0 c h; cases h; simp [requests]
    | cons e es ih =>
      intro c0 c h
      obtain ⟨c1, h1, h2⟩ := bind_ok.1 h
      rw [ih c1 c h2]
      cases e with
      | connect ep p =>
        simp only [step] at h1
        cases h1
        unfold connect
        split <;> simp [requests, emit]
      | tick d => cases h1; rfl
      | face k ev =>
        simp only [step] at h1
        split at h1
        · cases h1; rfl
        · obtain ⟨t, _, h3⟩ := bind_ok.1 h1
          cases h3; rfl
      | connected i q o =>
        show _ = _ ++ requests es
        congr 1
        simp only [step] at h1
        split at h1
        · cases h1; rfl
        · rename_i a ha
          split at h1
          · cases h1; rfl
          · split at h1
            · exact hconn ha h1
            · cases h1; exact hset _ _ _ _ ha rfl
      | connNext i =>
        show _ = _ ++ requests es
        congr 1
        simp only [step] at h1
        split at h1
        · cases h1; rfl
        · rename_i a ha
          split at h1
          · exact hconn ha h1
          · cases h1; rfl
      | timeout i =>
        show _ = _ ++ requests es
        congr 1
        simp only [step] at h1
        split at h1
        · cases h1; rfl
        · rename_i a ha
          split at h1
          · cases h1; rfl
          · split at h1
            · cases h1; rfl
            · cases h1; exact hset _ _ _ _ ha rfl
      | listen =>
        simp only [step] at h1
        split at h1 <;> (cases h1; rfl)
      | accept ep q o =>
        show _ = _ ++ requests es
        simp only [step] at h1
        split at h1
        · cases h1; rfl
        · split at h1
          · rw [hacc h1]
          · cases h1; rfl
      | acceptFail o =>
        show _ = _ ++ requests es
        simp only [step] at h1
        split at h1
        · cases h1; rfl
        · split at h1
          · rw [hacc h1]
          · cases h1; rfl
      | acceptNext =>
        show _ = _ ++ requests es
        simp only [step] at h1
        split at h1
        · cases h1; rfl
        · rw [hacc h1]
  have := key es Chan.init c h
  simpa [Chan.init] using this

/-- C92: each request has no answer yet, or one, or two of which the first is that it timed out and the second one is a failure, too. A request
that was not made has none. Missing: it is not true that there is at most one answer, see `C92_twice`. -/
theorem C92_answers_partial (cfg : Cfg) (es : List Event) (c : Chan) (h : run cfg Chan.init es = .ok c) (i : Nat) :
    (answersTo i c.out = []) ∨ (i < (requests es).length ∧ ∃ x t, answersTo i c.out = [(x, t)]) ∨
    (i < (requests es).length ∧ ∃ x t u, answersTo i c.out = [(.timedOut, t), (x, u)] ∧ (x = .refused ∨ x = .noEndpoint)) := by
  have hlen : c.reqs.length = (requests es).length := by rw [← C92_requests cfg es c h, List.length_map]
  have hi := rinv_run h
  by_cases hl : i < c.reqs.length
  · have ha := List.getElem?_eq_getElem hl
    have hp := hi.phase i _ ha
    generalize answersTo i c.out = A at hp
    cases hp with
    | waiting => exact Or.inl rfl
    | late r t => exact Or.inr (Or.inl ⟨by omega, _, t, rfl⟩)
    | over x t => exact Or.inr (Or.inl ⟨by omega, x, t, rfl⟩)
    | twice x t u _ _ hx => exact Or.inr (Or.inr ⟨by omega, x, t, u, rfl, hx⟩)
  · exact Or.inl (hi.fresh i (by omega))

/-- C92: a request that is answered with a face has no other answer. -/
theorem C92_created_once (cfg : Cfg) (es : List Event) (c : Chan) (h : run cfg Chan.init es = .ok c) (i k t : Nat)
    (hm : (.created k, t) ∈ answersTo i c.out) : answersTo i c.out = [(.created k, t)] := by
  rcases C92_answers_partial cfg es c h i with ha | ⟨_, x, u, ha⟩ | ⟨_, x, u, v, ha, hx⟩
  · rw [ha] at hm; cases hm
  · rw [ha] at hm ⊢
    rw [List.mem_singleton] at hm
    rw [hm]
  · rw [ha] at hm
    rcases hx with rfl | rfl <;> simp at hm

/-- C92: if timeouts run in time, every request has an answer when its timeout is over. -/
theorem C92_timely (cfg : Cfg) (es : List Event) (c : Chan) (h : run cfg Chan.init es = .ok c)
    (ht : ∀ (i : Nat) (a : Attempt) (due : Nat), c.reqs[i]? = some a → a.timer = some due → c.now ≤ due)
    (i : Nat) (a : Attempt) (ha : c.reqs[i]? = some a) (hn : a.start + cfg.timeout < c.now) : answersTo i c.out ≠ [] := by
  have hp := (rinv_run h).phase i a ha
  intro he
  rw [he] at hp
  cases hp with
  | waiting _ _ h3 => have := ht i a _ ha h3; omega

/-- C92: a request times out only when its timeout is over, and no request is answered before it is made. -/
theorem C92_not_early (cfg : Cfg) (es : List Event) (c : Chan) (h : run cfg Chan.init es = .ok c) (i : Nat) (a : Attempt) (ha : c.reqs[i]? = some a)
    (x : Answer) (t : Nat) (hm : (x, t) ∈ answersTo i c.out) : a.start ≤ t ∧ (x = .timedOut → a.start + cfg.timeout ≤ t) := by
  have hp := (rinv_run h).phase i a ha
  generalize answersTo i c.out = A at hp hm
  cases hp with
  | waiting => cases hm
  | late r u h1 h2 h3 h4 h5 =>
    rw [List.mem_singleton] at hm
    cases hm
    exact ⟨by omega, fun _ => h4⟩
  | over y u h1 h2 h3 h4 h5 =>
    rw [List.mem_singleton] at hm
    cases hm
    exact ⟨h4, h3⟩
  | twice y u v h1 h2 h3 h4 h5 h6 =>
    simp only [List.mem_cons, Prod.mk.injEq, List.not_mem_nil, or_false] at hm
    rcases hm with ⟨rfl, rfl⟩ | ⟨rfl, rfl⟩
    · exact ⟨by omega, fun _ => h4⟩
    · exact ⟨by omega, by intro e; rcases h3 with h3 | h3 <;> (rw [h3] at e; cases e)⟩

/-- C92: the face in an answer exists, and its remote endpoint is the one that was requested, or the one that the operating system connects
to when asked for it. -/
theorem C92_endpoint (cfg : Cfg) (es : List Event) (c : Chan) (h : run cfg Chan.init es = .ok c) (i k t : Nat) (hm : .answer i (.created k) t ∈ c.out) :
    ∃ ep f, (requests es)[i]? = some ep ∧ c.faces[k]? = some f ∧ (f.ep = ep ∨ f.ep = cfg.peer ep) := by
  obtain ⟨a, f, h1, h2, h3⟩ := (finv_run h).created i k t hm
  refine ⟨a.ep, f, ?_, h2, h3⟩
  rw [← C92_requests cfg es c h, List.getElem?_map, h1]
  rfl

/-- There is no face for this endpoint, except CLOSED ones. -/
def NoFace (c : Chan) (ep : Nat) : Prop := ∀ (k : Nat) (f : Face), c.faces[k]? = some f → f.ep = ep → f.tp.state = .closed

theorem lookup_some {cfg : Cfg} {c : Chan} (h : FInv cfg c) {ep k : Nat} (hl : c.map.lookup ep = some k) :
    ∃ f, c.faces[k]? = some f ∧ f.ep = ep ∧ f.tp.state ≠ .closed := (h.map ep k).1 (mem_of_lookup hl)

theorem lookup_none {cfg : Cfg} {c : Chan} (h : FInv cfg c) {ep : Nat} (hl : c.map.lookup ep = none) : NoFace c ep := by
  intro k f hf he
  apply Decidable.byContradiction
  intro hs
  exact not_mem_of_lookup hl ((h.map ep k).2 ⟨f, hf, he, hs⟩)

/-- C92: if there is a face for the endpoint that is not CLOSED, the request is answered with it at once, and nothing else changes. Otherwise a
connection attempt begins. -/
theorem C92_connect (cfg : Cfg) (es : List Event) (c : Chan) (h : run cfg Chan.init es = .ok c) (ep : Nat) (p : Persist) :
    ∃ c', step cfg c (.connect ep p) = .ok c' ∧ c'.faces = c.faces ∧
      ((∃ (k : Nat) (f : Face), c.faces[k]? = some f ∧ f.ep = ep ∧ f.tp.state ≠ .closed ∧ c'.out = c.out ++ [.answer c.reqs.length (.created k) c.now]) ∨
       (NoFace c ep ∧ c'.out = c.out ∧ ∃ a, c'.reqs = c.reqs ++ [a] ∧ a.ep = ep ∧ a.persist = p ∧ a.conn = .outstanding)) := by
  refine ⟨_, rfl, ?_⟩
  unfold connect
  split
  · rename_i k hk
    obtain ⟨f, h1, h2, h3⟩ := lookup_some (finv_run h) hk
    exact ⟨rfl, Or.inl ⟨k, f, h1, h2, h3, rfl⟩⟩
  · rename_i hk
    exact ⟨rfl, Or.inr ⟨lookup_none (finv_run h) hk, rfl, _, rfl, rfl, rfl, rfl⟩⟩

/-- C92: a connection attempt that succeeds is answered with a face: the one that there is for the endpoint, which stays as it is, or a new one,
which is UP and has the requested persistency. (The peer does not reset the connection in this moment.) -/
theorem C92_connected (cfg : Cfg) (es : List Event) (c : Chan) (h : run cfg Chan.init es = .ok c) (i : Nat) (a : Attempt) (ha : c.reqs[i]? = some a)
    (hc : a.conn = .outstanding) (q : Nat) (hq : 5 ≤ q) :
    ∃ c' k f, step cfg c (.connected i (some q) true) = .ok c' ∧ c'.out = c.out ++ [.answer i (.created k) c.now] ∧ c'.faces[k]? = some f ∧
      f.ep = cfg.peer a.ep ∧ f.tp.state ≠ .closed ∧
      ((c'.faces = c.faces) ∨ (NoFace c (cfg.peer a.ep) ∧ c'.faces = c.faces ++ [f] ∧ f.tp = Tp.init true a.persist)) := by
  have hshut : a.shut = false := by
    have hp := (rinv_run h).phase i a ha
    generalize answersTo i c.out = A at hp
    cases hp with
    | waiting _ _ _ h4 => exact h4
    | late r t h1 => rw [hc] at h1; cases h1
    | over x t h1 => rw [hc] at h1; cases h1
    | twice x t u h1 => rw [hc] at h1; cases h1
  have hi := finv_run h
  have hst : step cfg c (.connected i (some q) true) = handleConnect cfg c i a (.ok q) := by simp [step, ha, hc, resOf]
  rw [hst]
  simp only [handleConnect, hshut, Bool.false_eq_true, if_false]
  obtain ⟨q, rfl⟩ : ∃ n, q = n + 5 := ⟨q - 5, by omega⟩
  have key : ∀ (n : Nat) (rs : List Attempt), 4 ≤ n → ∃ c' k f, createFace { c with reqs := rs } (cfg.peer a.ep) n a.persist (.req i) = .ok c' ∧
      c'.out = c.out ++ [.answer i (.created k) c.now] ∧ c'.faces[k]? = some f ∧
      f.ep = cfg.peer a.ep ∧ f.tp.state ≠ .closed ∧
      ((c'.faces = c.faces) ∨ (NoFace c (cfg.peer a.ep) ∧ c'.faces = c.faces ++ [f] ∧ f.tp = Tp.init true a.persist)) := by
    intro n rs hn
    cases hcr : createFace { c with reqs := rs } (cfg.peer a.ep) n a.persist (.req i) with
    | error f => obtain ⟨_, _, h3, _⟩ := createFace_err hcr; omega
    | ok c' =>
      rcases createFace_cases hcr with ⟨h0, _⟩ | ⟨_, k, hk, rfl⟩ | ⟨_, hk, rfl⟩
      · omega
      · obtain ⟨f, h1, h2, h3⟩ := lookup_some hi hk
        exact ⟨_, k, f, rfl, rfl, h1, h2, h3, Or.inl rfl⟩
      · refine ⟨_, c.faces.length, ⟨cfg.peer a.ep, Tp.init true a.persist⟩, rfl, rfl, ?_, rfl, by simp [Tp.init], Or.inr ⟨lookup_none hi hk, rfl, rfl⟩⟩
        simp [report, emit, addFace]
  cases ht : cfg.trace with
  | false =>
    simp only [Bool.false_eq_true, if_false, bind, Except.bind]
    exact key (q + 5) _ (by omega)
  | true =>
    simp only [if_true, ask, bind, Except.bind]
    exact key (q + 4) _ (by omega)

/-- C92: a connection attempt that fails is answered with failure, and no face is created. -/
theorem C92_refused (cfg : Cfg) (c : Chan) (i : Nat) (a : Attempt) (ha : c.reqs[i]? = some a) (hc : a.conn = .outstanding) :
    ∃ c', step cfg c (.connected i none true) = .ok c' ∧ c'.out = c.out ++ [.answer i .refused c.now] ∧ c'.faces = c.faces := by
  have hst : step cfg c (.connected i none true) = handleConnect cfg c i a .err := by simp [step, ha, hc, resOf]
  rw [hst]
  exact ⟨_, rfl, rfl, rfl⟩

/-- The handler of every connection attempt is invoked as soon as it completes. -/
def Prompt (es : List Event) : Prop := ∀ i q, .connected i q false ∉ es

/-- C92: if the handler of a connection attempt is invoked as soon as it completes, the request has at most one answer. Missing: the event loop does
not guarantee this, see `C92_twice`. -/
theorem C92_once_partial (cfg : Cfg) (es : List Event) (c : Chan) (h : run cfg Chan.init es = .ok c) (hp : Prompt es) (i : Nat) :
    (answersTo i c.out).length ≤ 1 := by
  -- only aborted attempts are queued, and no request has two answers
  have key : ∀ (es : List Event) (c0 c : Chan), run cfg c0 es = .ok c → Prompt es → RInv cfg c0 →
      ((∀ (i : Nat) (a : Attempt) (r : Res), c0.reqs[i]? = some a → a.conn = .queued r → r = .aborted) ∧ ∀ i, (answersTo i c0.out).length ≤ 1) →
      ∀ i, (answersTo i c.out).length ≤ 1 := by
    intro es
    induction es with
    | nil => intro c0 c h _ _ hq; cases h; exact hq.2
    | cons e es ih =>
      intro c0 c h hp hr ⟨hq, hl⟩
      obtain ⟨c1, h1, h2⟩ := bind_ok.1 h
      refine ih c1 c h2 (fun i q hm => hp i q (List.mem_cons_of_mem _ hm)) (rinv_step hr h1) ?_
      -- handleConnect
      have hconn : ∀ {j : Nat} {a : Attempt} {r : Res}, c0.reqs[j]? = some a → (a.conn = .queued r ∨ (a.conn = .outstanding ∧ r ≠ .aborted)) →
          handleConnect cfg c0 j a r = .ok c1 →
          (∀ (i : Nat) (a : Attempt) (r : Res), c1.reqs[i]? = some a → a.conn = .queued r → r = .aborted) ∧ ∀ i, (answersTo i c1.out).length ≤ 1 := by
        intro j a r ha hc e
        have hreqs : ∀ (i : Nat) (b : Attempt) (r : Res), (c0.reqs.set j { a with conn := .finished, timer := none })[i]? = some b → b.conn = .queued r → r = .aborted := by
          intro i b r hb hbc
          rw [List.getElem?_set] at hb
          split at hb
          · split at hb
            · cases hb; cases hbc
            · cases hb
          · exact hq i b r hb hbc
        -- a new answer goes to a request without answers
        have hnew : r ≠ .aborted → answersTo j c0.out = [] := by
          intro hra
          have hph := hr.phase j a ha
          generalize answersTo j c0.out = A at hph ⊢
          cases hph with
          | waiting => rfl
          | late r' t g1 =>
            rcases hc with hc | ⟨hc, _⟩
            · rw [hc] at g1; cases g1; exact absurd (hq j a r ha hc) hra
            · rw [hc] at g1; cases g1
          | over x t g1 => rcases hc with hc | ⟨hc, _⟩ <;> (rw [hc] at g1; cases g1)
          | twice x t u g1 => rcases hc with hc | ⟨hc, _⟩ <;> (rw [hc] at g1; cases g1)
        have hadd : ∀ (x : Answer) (t : Nat) (i : Nat), r ≠ .aborted → (answersTo i (c0.out ++ [.answer j x t])).length ≤ 1 := by
          intro x t i hra
          rw [answersTo_append]
          by_cases hi : i = j
          · subst hi
            rw [hnew hra, answersTo_self]
            simp
          · rw [answersTo_other _ _ hi, List.append_nil]
            exact hl i
        rcases handleConnect_cases e with ⟨hre, rfl⟩ | ⟨_, rfl⟩ | ⟨q, q', hre, _, hcr⟩
        · exact ⟨hreqs, fun i => hadd _ _ i (by rw [hre]; intro e; cases e)⟩
        · exact ⟨hreqs, hl⟩
        · obtain ⟨_, g2, x, g3, _⟩ := createFace_req hcr
          refine ⟨?_, ?_⟩
          · rw [g2]; exact hreqs
          · intro i
            rw [g3]
            exact hadd _ _ i (by rw [hre]; intro e; cases e)
      have hacc : ∀ {c2 : Chan} {x : Option (Nat × Nat)}, c2.reqs = c0.reqs → c2.out = c0.out → handleAccept cfg c2 x = .ok c1 →
          (∀ (i : Nat) (a : Attempt) (r : Res), c1.reqs[i]? = some a → a.conn = .queued r → r = .aborted) ∧ ∀ i, (answersTo i c1.out).length ≤ 1 := by
        intro c2 x g1 g2 e
        rcases handleAccept_cases e with ⟨_, rfl⟩ | ⟨ep, q, q', c3, _, _, hc, rfl⟩
        · refine ⟨by rw [show (emit c2 .acceptFailed).reqs = c2.reqs from rfl, g1]; exact hq, fun i => ?_⟩
          show (answersTo i (c2.out ++ [.acceptFailed])).length ≤ 1
          rw [g2, answersTo_append]
          simpa [answersTo] using hl i
        · obtain ⟨_, k2, o, k3, k4⟩ := createFace_acceptor hc
          refine ⟨by rw [show ({ c3 with accepting := true } : Chan).reqs = c3.reqs from rfl, k2, g1]; exact hq, fun i => ?_⟩
          show (answersTo i c3.out).length ≤ 1
          rw [k3, answersTo_append, k4, List.append_nil, g2]
          exact hl i
      cases e with
      | tick d => cases h1; exact ⟨hq, hl⟩
      | face k ev =>
        simp only [step] at h1
        split at h1
        · cases h1; exact ⟨hq, hl⟩
        · obtain ⟨t, _, h3⟩ := bind_ok.1 h1
          cases h3; exact ⟨hq, hl⟩
      | connect ep p =>
        simp only [step] at h1
        cases h1
        unfold connect
        have hpush : ∀ (b : Attempt), (∀ r, b.conn ≠ .queued r) → ∀ (i : Nat) (a : Attempt) (r : Res), (c0.reqs ++ [b])[i]? = some a → a.conn = .queued r → r = .aborted := by
          intro b hb i a r ha hc
          rw [List.getElem?_append] at ha
          split at ha
          · exact hq i a r ha hc
          · rw [List.getElem?_singleton] at ha
            split at ha
            · cases ha; exact absurd hc (hb r)
            · cases ha
        split
        · rename_i k hk
          refine ⟨hpush _ (by intro r e; cases e), fun i => ?_⟩
          show (answersTo i (c0.out ++ [.answer c0.reqs.length (.created k) c0.now])).length ≤ 1
          rw [answersTo_append]
          by_cases hi : i = c0.reqs.length
          · subst hi
            rw [hr.fresh _ (Nat.le_refl _), answersTo_self]
            simp
          · rw [answersTo_other _ _ hi, List.append_nil]
            exact hl i
        · exact ⟨hpush _ (by intro r e; cases e), hl⟩
      | connected i q o =>
        have ho : o = true := by
          cases o with
          | true => rfl
          | false => exact absurd List.mem_cons_self (hp i q)
        subst ho
        simp only [step] at h1
        split at h1
        · cases h1; exact ⟨hq, hl⟩
        · rename_i a ha
          split at h1
          · cases h1; exact ⟨hq, hl⟩
          · rename_i hc
            have hc : a.conn = .outstanding := Decidable.byContradiction hc
            rw [if_pos trivial] at h1
            exact hconn ha (Or.inr ⟨hc, by cases q <;> (intro e; cases e)⟩) h1
      | connNext i =>
        simp only [step] at h1
        split at h1
        · cases h1; exact ⟨hq, hl⟩
        · rename_i a ha
          split at h1
          · rename_i r hc
            exact hconn ha (Or.inl hc) h1
          · cases h1; exact ⟨hq, hl⟩
      | timeout i =>
        simp only [step] at h1
        split at h1
        · cases h1; exact ⟨hq, hl⟩
        · rename_i a ha
          split at h1
          · cases h1; exact ⟨hq, hl⟩
          · rename_i due hd
            split at h1
            · cases h1; exact ⟨hq, hl⟩
            · cases h1
              have hph := hr.phase i a ha
              have hnew : answersTo i c0.out = [] ∧ ∀ r, a.conn = .queued r → r = .aborted := by
                refine ⟨?_, fun r hr => hq i a r ha hr⟩
                generalize answersTo i c0.out = A at hph ⊢
                cases hph with
                | waiting => rfl
                | late r' t g1 g2 => rw [hd] at g2; cases g2
                | over x t g1 g2 => rw [hd] at g2; cases g2
                | twice x t u g1 g2 => rw [hd] at g2; cases g2
              refine ⟨?_, fun j => ?_⟩
              · intro j b r hb hbc
                have hb : (c0.reqs.set i { a with conn := if a.conn = .outstanding then .queued .aborted else a.conn, timer := none, shut := true })[j]? = some b := hb
                rw [List.getElem?_set] at hb
                split at hb
                · split at hb
                  · cases hb
                    dsimp only at hbc
                    split at hbc
                    · cases hbc; rfl
                    · exact hnew.2 r hbc
                  · cases hb
                · exact hq j b r hb hbc
              · show (answersTo j (c0.out ++ [.answer i .timedOut c0.now])).length ≤ 1
                rw [answersTo_append]
                by_cases hj : j = i
                · subst hj
                  rw [hnew.1, answersTo_self]
                  simp
                · rw [answersTo_other _ _ hj, List.append_nil]
                  exact hl j
      | listen =>
        simp only [step] at h1
        split at h1 <;> (cases h1; exact ⟨hq, hl⟩)
      | accept ep q o =>
        simp only [step] at h1
        split at h1
        · cases h1; exact ⟨hq, hl⟩
        · split at h1
          · exact hacc (c2 := { c0 with accepting := false }) rfl rfl h1
          · cases h1; exact ⟨hq, hl⟩
      | acceptFail o =>
        simp only [step] at h1
        split at h1
        · cases h1; exact ⟨hq, hl⟩
        · split at h1
          · exact hacc (c2 := { c0 with accepting := false }) rfl rfl h1
          · cases h1; exact ⟨hq, hl⟩
      | acceptNext =>
        simp only [step] at h1
        split at h1
        · cases h1; exact ⟨hq, hl⟩
        · exact hacc (c2 := { c0 with pending := none }) rfl rfl h1
  refine key es Chan.init c h hp (rinv_init cfg) ⟨?_, fun i => by simp [Chan.init, answersTo]⟩ i
  intro i a r ha
  simp [Chan.init] at ha

/-- C92 is violated: when a connection is established just before the timeout runs, the request is answered twice, and the connection is lost. -/
theorem C92_twice : ∃ c, run plain Chan.init [.connect 1 .persistent, .tick 8000, .connected 0 (some 9) false, .timeout 0, .connNext 0] = .ok c ∧
    c.out = [.answer 0 .timedOut 8000, .answer 0 .noEndpoint 8000] ∧ c.faces.length = 0 := by
  obtain ⟨c, h1, h2⟩ := okWith_ex (r := run plain Chan.init [.connect 1 .persistent, .tick 8000, .connected 0 (some 9) false, .timeout 0, .connNext 0])
    (p := fun c => c.out == [.answer 0 .timedOut 8000, .answer 0 .noEndpoint 8000] && c.faces.length == 0) (by decide +kernel)
  simp only [Bool.and_eq_true, beq_iff_eq] at h2
  exact ⟨c, h1, h2.1, h2.2⟩

/-- Two requests for one endpoint are answered with the same face, a third one is refused, a fourth one times out, and a fifth one gets a new face
because the first one is CLOSED. -/
example : okWith (run plain Chan.init [.connect 1 .persistent, .connect 1 .permanent, .connect 2 .persistent, .connect 3 .persistent, .tick 5,
      .connected 1 (some 4) true, .connected 0 (some 5) true, .connected 2 none true, .face 0 .close, .face 0 .next, .face 0 .next, .connect 1 .persistent,
      .tick 10, .connected 4 (some 6) true, .tick 7985, .timeout 3, .connNext 3])
    (fun c => c.out == [.answer 1 (.created 0) 5, .answer 0 (.created 0) 5, .answer 2 .refused 5, .answer 4 (.created 1) 15, .answer 3 .timedOut 8000] &&
      c.faces.map (fun f => (f.ep, f.tp.persist, f.tp.state)) == [(1, .permanent, .closed), (1, .persistent, .up)]) = true := by
  decide +kernel

/-! ### C93: accepting -/

/-- C93: while the channel accepts connections, a connection from any endpoint becomes an on-demand face that is UP, unless there is a face for this
endpoint that is not CLOSED, which is reported then; and the channel keeps accepting. (The peer does not reset the connection in this moment.) -/
theorem C93_accept (cfg : Cfg) (es : List Event) (c : Chan) (h : run cfg Chan.init es = .ok c) (hac : c.accepting = true) (ep q : Nat) (hq : 5 ≤ q) :
    ∃ c' k f, step cfg c (.accept ep q true) = .ok c' ∧ c'.accepting = true ∧ c'.out = c.out ++ [.accepted ep k] ∧ c'.faces[k]? = some f ∧ f.ep = ep ∧
      f.tp.state ≠ .closed ∧ ((c'.faces = c.faces) ∨ (NoFace c ep ∧ c'.faces = c.faces ++ [f] ∧ f.tp = Tp.init true .onDemand)) := by
  have hi := finv_run h
  obtain ⟨q, rfl⟩ : ∃ n, q = n + 5 := ⟨q - 5, by omega⟩
  have key : ∀ n, 4 ≤ n → ∃ c1 k f, createFace { c with accepting := false } ep n .onDemand .acceptor = .ok c1 ∧
      c1.out = c.out ++ [.accepted ep k] ∧ c1.faces[k]? = some f ∧ f.ep = ep ∧ f.tp.state ≠ .closed ∧
      ((c1.faces = c.faces) ∨ (NoFace c ep ∧ c1.faces = c.faces ++ [f] ∧ f.tp = Tp.init true .onDemand)) := by
    intro n hn
    cases hcr : createFace { c with accepting := false } ep n .onDemand .acceptor with
    | error f => obtain ⟨_, _, h3, _⟩ := createFace_err hcr; omega
    | ok c' =>
      rcases createFace_cases hcr with ⟨h0, _⟩ | ⟨_, k, hk, rfl⟩ | ⟨_, hk, rfl⟩
      · omega
      · obtain ⟨f, h1, h2, h3⟩ := lookup_some hi hk
        exact ⟨_, k, f, rfl, rfl, h1, h2, h3, Or.inl rfl⟩
      · refine ⟨_, c.faces.length, ⟨ep, Tp.init true .onDemand⟩, rfl, rfl, ?_, rfl, by simp [Tp.init], Or.inr ⟨lookup_none hi hk, rfl, rfl⟩⟩
        simp [report, emit, addFace]
  simp only [step, hac, Bool.not_true, Bool.false_eq_true, if_false, if_true, handleAccept]
  cases ht : cfg.trace with
  | false =>
    obtain ⟨c1, k, f, h1, h2, h3, h4, h5, h6⟩ := key (q + 5) (by omega)
    refine ⟨{ c1 with accepting := true }, k, f, ?_, rfl, h2, h3, h4, h5, h6⟩
    simp only [Bool.false_eq_true, if_false, bind, Except.bind, h1]
  | true =>
    obtain ⟨c1, k, f, h1, h2, h3, h4, h5, h6⟩ := key (q + 4) (by omega)
    refine ⟨{ c1 with accepting := true }, k, f, ?_, rfl, h2, h3, h4, h5, h6⟩
    simp only [if_true, ask, bind, Except.bind, h1]

/-- C93: the face that is reported for an accepted connection exists and belongs to its endpoint. -/
theorem C93_endpoint (cfg : Cfg) (es : List Event) (c : Chan) (h : run cfg Chan.init es = .ok c) (ep k : Nat) (hm : (ep, k) ∈ acceptedFaces c.out) :
    ∃ f, c.faces[k]? = some f ∧ f.ep = ep := by
  refine (finv_run h).accepted ep k ?_
  generalize c.out = o at hm
  induction o with
  | nil => cases hm
  | cons x o ih =>
    cases x with
    | accepted e j =>
      simp only [acceptedFaces, List.mem_cons, Prod.mk.injEq] at hm
      rcases hm with ⟨rfl, rfl⟩ | hm
      · exact List.mem_cons_self
      · exact List.mem_cons_of_mem _ (ih hm)
    | _ => exact List.mem_cons_of_mem _ (ih hm)

/-- Will the channel handle another connection? It accepts, or has one to handle. -/
def Hears (c : Chan) : Prop := c.accepting = true ∨ ∃ x, c.pending = some (some x)

/-- The channel listens but will not handle another connection. -/
def Deaf (c : Chan) : Prop := c.isOpen = true ∧ c.accepting = false ∧ c.pending = none

theorem createFace_frame {c c' : Chan} {ep q : Nat} {p : Persist} {s : Sink} (h : createFace c ep q p s = .ok c') :
    c'.isOpen = c.isOpen ∧ c'.accepting = c.accepting ∧ c'.pending = c.pending := by
  rcases createFace_cases h with ⟨_, rfl⟩ | ⟨_, k, hk, rfl⟩ | ⟨_, hk, rfl⟩
  · exact ⟨(report_frame _ _ _ _).2.2.2.2.1, (report_frame _ _ _ _).2.2.2.2.2.1, (report_frame _ _ _ _).2.2.2.2.2.2⟩
  · exact ⟨(report_frame _ _ _ _).2.2.2.2.1, (report_frame _ _ _ _).2.2.2.2.2.1, (report_frame _ _ _ _).2.2.2.2.2.2⟩
  · exact ⟨(report_frame _ _ _ _).2.2.2.2.1, (report_frame _ _ _ _).2.2.2.2.2.1, (report_frame _ _ _ _).2.2.2.2.2.2⟩

theorem handleConnect_frame {cfg : Cfg} {c c' : Chan} {i : Nat} {a : Attempt} {r : Res} (e : handleConnect cfg c i a r = .ok c') :
    c'.isOpen = c.isOpen ∧ c'.accepting = c.accepting ∧ c'.pending = c.pending := by
  rcases handleConnect_cases e with ⟨_, rfl⟩ | ⟨_, rfl⟩ | ⟨q, q', _, _, hc⟩
  · exact ⟨rfl, rfl, rfl⟩
  · exact ⟨rfl, rfl, rfl⟩
  · have := createFace_frame hc
    exact this

/-- Events that do not concern accepting leave it alone. -/
theorem step_frame {cfg : Cfg} {c c' : Chan} {e : Event} (h : step cfg c e = .ok c') (h1 : e ≠ .listen) (h2 : ∀ ep q o, e ≠ .accept ep q o)
    (h3 : ∀ o, e ≠ .acceptFail o) (h4 : e ≠ .acceptNext) : c'.isOpen = c.isOpen ∧ c'.accepting = c.accepting ∧ c'.pending = c.pending := by
  cases e with
  | listen => exact absurd rfl h1
  | accept ep q o => exact absurd rfl (h2 ep q o)
  | acceptFail o => exact absurd rfl (h3 o)
  | acceptNext => exact absurd rfl h4
  | tick d => cases h; exact ⟨rfl, rfl, rfl⟩
  | face k ev =>
    simp only [step] at h
    split at h
    · cases h; exact ⟨rfl, rfl, rfl⟩
    · obtain ⟨t, _, h5⟩ := bind_ok.1 h
      cases h5; exact ⟨rfl, rfl, rfl⟩
  | connect ep p =>
    simp only [step] at h
    cases h
    unfold connect
    split <;> exact ⟨rfl, rfl, rfl⟩
  | connected i q o =>
    simp only [step] at h
    split at h
    · cases h; exact ⟨rfl, rfl, rfl⟩
    · split at h
      · cases h; exact ⟨rfl, rfl, rfl⟩
      · split at h
        · exact handleConnect_frame h
        · cases h; exact ⟨rfl, rfl, rfl⟩
  | connNext i =>
    simp only [step] at h
    split at h
    · cases h; exact ⟨rfl, rfl, rfl⟩
    · split at h
      · exact handleConnect_frame h
      · cases h; exact ⟨rfl, rfl, rfl⟩
  | timeout i =>
    simp only [step] at h
    split at h
    · cases h; exact ⟨rfl, rfl, rfl⟩
    · split at h
      · cases h; exact ⟨rfl, rfl, rfl⟩
      · split at h <;> (cases h; exact ⟨rfl, rfl, rfl⟩)

theorem handleAccept_some {cfg : Cfg} {c c' : Chan} {x : Nat × Nat} (h : handleAccept cfg c (some x) = .ok c') : c'.isOpen = c.isOpen ∧ c'.accepting = true := by
  rcases handleAccept_cases h with ⟨h0, _⟩ | ⟨ep, q, q', c1, _, _, hc, rfl⟩
  · cases h0
  · exact ⟨(createFace_frame hc).1, rfl⟩

/-- A channel hears until accepting fails. -/
theorem hears_step {cfg : Cfg} {c c' : Chan} {e : Event} (h : step cfg c e = .ok c') (hh : Hears c) (hf : ∀ o, e ≠ .acceptFail o) : Hears c' := by
  by_cases hl : e = .listen
  · subst hl
    simp only [step] at h
    split at h
    · cases h; exact hh
    · cases h; exact Or.inl rfl
  · by_cases hn : e = .acceptNext
    · subst hn
      simp only [step] at h
      split at h
      · cases h; exact hh
      · rename_i x hx
        cases x with
        | some y => exact Or.inl (handleAccept_some h).2
        | none =>
          rcases hh with hh | ⟨y, hy⟩
          · simp only [handleAccept] at h
            cases h
            exact Or.inl hh
          · rw [hx] at hy; cases hy
    · by_cases ha : ∃ ep q o, e = .accept ep q o
      · obtain ⟨ep, q, o, rfl⟩ := ha
        simp only [step] at h
        split at h
        · cases h; exact hh
        · split at h
          · exact Or.inl (handleAccept_some h).2
          · cases h; exact Or.inr ⟨_, rfl⟩
      · obtain ⟨_, h2, h3⟩ := step_frame h hl (fun ep q o hx => ha ⟨ep, q, o, hx⟩) hf hn
        unfold Hears
        rw [h2, h3]
        exact hh

/-- C93: a channel that was told to listen keeps accepting connections, as long as accepting does not fail. Missing: it need not when accepting
fails once, see `C93_deaf`. -/
theorem C93_listening_partial (cfg : Cfg) (es : List Event) (c : Chan) (h : run cfg Chan.init es = .ok c) (hl : .listen ∈ es)
    (hf : ∀ o, .acceptFail o ∉ es) : c.isOpen = true ∧ Hears c := by
  have key : ∀ (es : List Event) (c0 c : Chan), run cfg c0 es = .ok c → (∀ o, .acceptFail o ∉ es) →
      ((c0.isOpen = true ∧ Hears c0) ∨ (c0.isOpen = false ∧ c0.accepting = false ∧ c0.pending = none ∧ .listen ∈ es)) → c.isOpen = true ∧ Hears c := by
    intro es
    induction es with
    | nil =>
      intro c0 c h _ hh
      cases h
      rcases hh with hh | ⟨_, _, _, hm⟩
      · exact hh
      · cases hm
    | cons e es ih =>
      intro c0 c h hf hh
      obtain ⟨c1, h1, h2⟩ := bind_ok.1 h
      refine ih c1 c h2 (fun o hm => hf o (List.mem_cons_of_mem _ hm)) ?_
      have hfe : ∀ o, e ≠ .acceptFail o := fun o hx => hf o (hx ▸ List.mem_cons_self)
      rcases hh with ⟨ho, hh⟩ | ⟨g1, g2, g3, g4⟩
      · refine Or.inl ⟨?_, hears_step h1 hh hfe⟩
        by_cases hl : e = .listen
        · subst hl
          simp only [step, ho, if_true] at h1
          cases h1; exact ho
        · by_cases hn : e = .acceptNext
          · subst hn
            simp only [step] at h1
            split at h1
            · cases h1; exact ho
            · rename_i x hx
              cases x with
              | some y => rw [(handleAccept_some h1).1]; exact ho
              | none => simp only [handleAccept] at h1; cases h1; exact ho
          · by_cases ha : ∃ ep q o, e = .accept ep q o
            · obtain ⟨ep, q, o, rfl⟩ := ha
              simp only [step] at h1
              split at h1
              · cases h1; exact ho
              · split at h1
                · rw [(handleAccept_some h1).1]; exact ho
                · cases h1; exact ho
            · obtain ⟨h3, _⟩ := step_frame h1 hl (fun ep q o hx => ha ⟨ep, q, o, hx⟩) hfe hn
              rw [h3]; exact ho
      · by_cases hl : e = .listen
        · subst hl
          simp only [step, g1, Bool.false_eq_true, if_false] at h1
          cases h1
          exact Or.inl ⟨rfl, Or.inl rfl⟩
        · right
          have hm : .listen ∈ es := by
            rcases List.mem_cons.1 g4 with hx | hx
            · exact absurd hx.symm hl
            · exact hx
          by_cases hn : e = .acceptNext
          · subst hn
            simp only [step, g3] at h1
            cases h1; exact ⟨g1, g2, g3, hm⟩
          · by_cases ha : ∃ ep q o, e = .accept ep q o
            · obtain ⟨ep, q, o, rfl⟩ := ha
              simp only [step, g2] at h1
              cases h1; exact ⟨g1, g2, g3, hm⟩
            · obtain ⟨h3, h4, h5⟩ := step_frame h1 hl (fun ep q o hx => ha ⟨ep, q, o, hx⟩) hfe hn
              exact ⟨h3.trans g1, h4.trans g2, h5.trans g3, hm⟩
  exact key es Chan.init c h hf (Or.inr ⟨rfl, rfl, rfl, hl⟩)

theorem acceptedFaces_append (a b : List Out) : acceptedFaces (a ++ b) = acceptedFaces a ++ acceptedFaces b := by
  fun_induction acceptedFaces a <;> simp_all [acceptedFaces]

theorem deaf_step {cfg : Cfg} {c c' : Chan} {e : Event} (hd : Deaf c) (h : step cfg c e = .ok c') : Deaf c' ∧ acceptedFaces c'.out = acceptedFaces c.out := by
  obtain ⟨d1, d2, d3⟩ := hd
  have hcf : ∀ {c0 c1 : Chan} {ep q i : Nat} {p : Persist}, createFace c0 ep q p (.req i) = .ok c1 → acceptedFaces c1.out = acceptedFaces c0.out := by
    intro c0 c1 ep q i p hc
    obtain ⟨_, _, x, h3, _⟩ := createFace_req hc
    rw [h3, acceptedFaces_append]
    simp [acceptedFaces]
  have hconn : ∀ {i : Nat} {a : Attempt} {r : Res}, handleConnect cfg c i a r = .ok c' → acceptedFaces c'.out = acceptedFaces c.out := by
    intro i a r e
    rcases handleConnect_cases e with ⟨_, rfl⟩ | ⟨_, rfl⟩ | ⟨q, q', _, _, hc⟩
    · show acceptedFaces (c.out ++ _) = _
      rw [acceptedFaces_append]; simp [acceptedFaces]
    · rfl
    · have := hcf hc
      exact this
  by_cases hl : e = .listen
  · subst hl
    simp only [step, d1, if_true] at h
    cases h; exact ⟨⟨d1, d2, d3⟩, rfl⟩
  · by_cases hn : e = .acceptNext
    · subst hn
      simp only [step, d3] at h
      cases h; exact ⟨⟨d1, d2, d3⟩, rfl⟩
    · by_cases ha : ∃ ep q o, e = .accept ep q o
      · obtain ⟨ep, q, o, rfl⟩ := ha
        simp only [step, d2] at h
        cases h; exact ⟨⟨d1, d2, d3⟩, rfl⟩
      · by_cases hf : ∃ o, e = .acceptFail o
        · obtain ⟨o, rfl⟩ := hf
          simp only [step, d2] at h
          cases h; exact ⟨⟨d1, d2, d3⟩, rfl⟩
        · obtain ⟨h3, h4, h5⟩ := step_frame h hl (fun ep q o hx => ha ⟨ep, q, o, hx⟩) (fun o hx => hf ⟨o, hx⟩) hn
          refine ⟨⟨h3.trans d1, h4.trans d2, h5.trans d3⟩, ?_⟩
          cases e with
          | listen => exact absurd rfl hl
          | accept ep q o => exact absurd ⟨ep, q, o, rfl⟩ ha
          | acceptFail o => exact absurd ⟨o, rfl⟩ hf
          | acceptNext => exact absurd rfl hn
          | tick d => cases h; rfl
          | face k ev =>
            simp only [step] at h
            split at h
            · cases h; rfl
            · obtain ⟨t, _, h5⟩ := bind_ok.1 h
              cases h5; rfl
          | connect ep p =>
            simp only [step] at h
            cases h
            unfold connect
            split
            · show acceptedFaces (c.out ++ _) = _
              rw [acceptedFaces_append]; simp [acceptedFaces]
            · rfl
          | connected i q o =>
            simp only [step] at h
            split at h
            · cases h; rfl
            · split at h
              · cases h; rfl
              · split at h
                · exact hconn h
                · cases h; rfl
          | connNext i =>
            simp only [step] at h
            split at h
            · cases h; rfl
            · split at h
              · exact hconn h
              · cases h; rfl
          | timeout i =>
            simp only [step] at h
            split at h
            · cases h; rfl
            · split at h
              · cases h; rfl
              · split at h
                · cases h; rfl
                · cases h
                  show acceptedFaces (c.out ++ _) = _
                  rw [acceptedFaces_append]; simp [acceptedFaces]

/-- C93 is violated: when accepting fails once, the channel never creates a face for a peer again, although it counts as listening. -/
theorem C93_deaf (cfg : Cfg) (c c1 : Chan) (ho : c.isOpen = true) (ha : c.accepting = true) (hp : c.pending = none)
    (h1 : step cfg c (.acceptFail true) = .ok c1) (es : List Event) (c' : Chan) (h : run cfg c1 es = .ok c') :
    c'.isOpen = true ∧ acceptedFaces c'.out = acceptedFaces c.out := by
  have hd : Deaf c1 ∧ acceptedFaces c1.out = acceptedFaces c.out := by
    simp only [step, ha, Bool.not_true, Bool.false_eq_true, if_false, if_true, handleAccept] at h1
    cases h1
    refine ⟨⟨ho, rfl, hp⟩, ?_⟩
    show acceptedFaces (c.out ++ _) = _
    rw [acceptedFaces_append]; simp [acceptedFaces]
  have := run_induct (cfg := cfg) (P := fun x => Deaf x ∧ acceptedFaces x.out = acceptedFaces c.out)
    (fun x y e hx hs => ⟨(deaf_step hx.1 hs).1, (deaf_step hx.1 hs).2.trans hx.2⟩) hd h
  exact ⟨this.1.1, this.2⟩

/-- The hypotheses of `C93_deaf` are met: a channel listens, gets a connection, and fails to accept the next one; peers connect in vain. -/
theorem C93_deaf_witness : ∃ c, run plain Chan.init [.listen, .accept 1 9 true, .acceptFail true, .accept 2 9 true, .listen, .accept 2 9 true] = .ok c ∧
    c.isOpen = true ∧ c.out = [.accepted 1 0, .acceptFailed] := by
  obtain ⟨c, h1, h2⟩ := okWith_ex (r := run plain Chan.init [.listen, .accept 1 9 true, .acceptFail true, .accept 2 9 true, .listen, .accept 2 9 true])
    (p := fun c => c.isOpen && c.out == [.accepted 1 0, .acceptFailed]) (by decide +kernel)
  simp only [Bool.and_eq_true, beq_iff_eq] at h2
  exact ⟨c, h1, h2.1, h2.2⟩

/-- Connections are not reset while their faces are created: the remote endpoint can be determined always or never. -/
def Steady (es : List Event) : Prop :=
  ∀ e ∈ es, (∀ i q o, e = .connected i (some q) o → q = 0 ∨ 4 ≤ q) ∧ ∀ ep q o, e = .accept ep q o → q = 0 ∨ 4 ≤ q

/-- What is queued is steady, too. -/
structure QInv (c : Chan) : Prop where
  conn : ∀ (i : Nat) (a : Attempt) (q : Nat), c.reqs[i]? = some a → a.conn = .queued (.ok q) → q = 0 ∨ 4 ≤ q
  pend : ∀ ep q, c.pending = some (some (ep, q)) → q = 0 ∨ 4 ≤ q

theorem createFace_steady {c : Chan} {ep q : Nat} {p : Persist} {s : Sink} (hq : q = 0 ∨ 4 ≤ q) : ∃ c', createFace c ep q p s = .ok c' := by
  cases h : createFace c ep q p s with
  | ok c' => exact ⟨c', rfl⟩
  | error f => obtain ⟨_, h1, h2, _⟩ := createFace_err h; omega

theorem handleConnect_steady {cfg : Cfg} {c : Chan} {i : Nat} {a : Attempt} {r : Res} (ht : cfg.trace = false) (hq : ∀ q, r = .ok q → q = 0 ∨ 4 ≤ q) :
    ∃ c', handleConnect cfg c i a r = .ok c' := by
  unfold handleConnect
  dsimp only
  cases r with
  | err => exact ⟨_, rfl⟩
  | aborted => exact ⟨_, rfl⟩
  | ok q =>
    simp only [ht, Bool.false_eq_true, if_false, bind, Except.bind]
    refine createFace_steady ?_
    split
    · exact Or.inl rfl
    · exact hq q rfl

theorem handleAccept_steady {cfg : Cfg} {c : Chan} {x : Option (Nat × Nat)} (ht : cfg.trace = false) (hq : ∀ ep q, x = some (ep, q) → q = 0 ∨ 4 ≤ q) :
    ∃ c', handleAccept cfg c x = .ok c' := by
  unfold handleAccept
  cases x with
  | none => exact ⟨_, rfl⟩
  | some y =>
    obtain ⟨ep, q⟩ := y
    simp only [ht, Bool.false_eq_true, if_false, bind, Except.bind]
    obtain ⟨c', h⟩ := createFace_steady (c := c) (ep := ep) (p := .onDemand) (s := .acceptor) (hq ep q rfl)
    rw [h]
    exact ⟨_, rfl⟩

theorem qinv_set {c : Chan} (h : QInv c) {i : Nat} {b : Attempt} (hb : ∀ q, b.conn = .queued (.ok q) → q = 0 ∨ 4 ≤ q) (j : Nat) (a : Attempt) (q : Nat)
    (ha : (c.reqs.set i b)[j]? = some a) (hc : a.conn = .queued (.ok q)) : q = 0 ∨ 4 ≤ q := by
  rw [List.getElem?_set] at ha
  split at ha
  · split at ha
    · cases ha; exact hb q hc
    · cases ha
  · exact h.conn j a q ha hc

theorem qinv_handleConnect {cfg : Cfg} {c c' : Chan} {i : Nat} {a : Attempt} {r : Res} (h : QInv c) (e : handleConnect cfg c i a r = .ok c') : QInv c' := by
  have hset : ∀ (j : Nat) (b : Attempt) (q : Nat), (c.reqs.set i { a with conn := .finished, timer := none })[j]? = some b → b.conn = .queued (.ok q) → q = 0 ∨ 4 ≤ q :=
    qinv_set h (by intro q hx; cases hx)
  have hp := (handleConnect_frame e).2.2
  refine ⟨?_, by rw [hp]; exact h.pend⟩
  rcases handleConnect_cases e with ⟨_, rfl⟩ | ⟨_, rfl⟩ | ⟨q, q', _, _, hc⟩
  · exact hset
  · exact hset
  · rw [(createFace_req hc).2.1]; exact hset

theorem qinv_handleAccept {cfg : Cfg} {c c' : Chan} {x : Option (Nat × Nat)} (h : QInv c) (e : handleAccept cfg c x = .ok c') : QInv c' := by
  rcases handleAccept_cases e with ⟨_, rfl⟩ | ⟨ep, q, q', c1, _, _, hc, rfl⟩
  · exact ⟨h.conn, h.pend⟩
  · refine ⟨?_, ?_⟩
    · show ∀ (i : Nat) (a : Attempt) (q : Nat), c1.reqs[i]? = some a → _
      rw [(createFace_acceptor hc).2.1]; exact h.conn
    · show ∀ ep q, c1.pending = _ → _
      rw [(createFace_frame hc).2.2]; exact h.pend

theorem step_steady {cfg : Cfg} {c : Chan} {e : Event} (ht : cfg.trace = false) (h : QInv c)
    (hs : (∀ i q o, e = .connected i (some q) o → q = 0 ∨ 4 ≤ q) ∧ ∀ ep q o, e = .accept ep q o → q = 0 ∨ 4 ≤ q) :
    (∃ f, step cfg c e = .error (.transport f)) ∨ ∃ c', step cfg c e = .ok c' ∧ QInv c' := by
  have hres : ∀ {i : Nat} {q : Option Nat} {o : Bool} {n : Nat}, e = .connected i q o → resOf q = .ok n → n = 0 ∨ 4 ≤ n := by
    intro i q o n he hr
    cases q with
    | none => cases hr
    | some q => cases hr; exact hs.1 i _ o he
  cases e with
  | tick d => exact Or.inr ⟨_, rfl, h.conn, h.pend⟩
  | face k ev =>
    simp only [step]
    split
    · exact Or.inr ⟨_, rfl, h⟩
    · rename_i f hf
      cases hx : Tp.step f.tp ev with
      | error g => exact Or.inl ⟨g, by simp [liftT, bind, Except.bind]⟩
      | ok t =>
        refine Or.inr ⟨putFace c k f { f with tp := t }, by simp [liftT, bind, Except.bind], ?_, ?_⟩
        · rw [show (putFace c k f { f with tp := t }).reqs = c.reqs by unfold putFace; rfl]; exact h.conn
        · rw [show (putFace c k f { f with tp := t }).pending = c.pending by unfold putFace; rfl]; exact h.pend
  | connect ep p =>
    refine Or.inr ⟨_, rfl, ?_⟩
    have hpush : ∀ b : Attempt, (∀ q, b.conn ≠ .queued (.ok q)) → ∀ (j : Nat) (a : Attempt) (q : Nat), (c.reqs ++ [b])[j]? = some a → a.conn = .queued (.ok q) → q = 0 ∨ 4 ≤ q := by
      intro b hb j a q ha hc
      rw [List.getElem?_append] at ha
      split at ha
      · exact h.conn j a q ha hc
      · rw [List.getElem?_singleton] at ha
        split at ha
        · cases ha; exact absurd hc (hb q)
        · cases ha
    unfold connect
    split
    · exact ⟨hpush _ (by intro q e; cases e), h.pend⟩
    · exact ⟨hpush _ (by intro q e; cases e), h.pend⟩
  | connected i q o =>
    simp only [step]
    split
    · exact Or.inr ⟨_, rfl, h⟩
    · rename_i a ha
      split
      · exact Or.inr ⟨_, rfl, h⟩
      · split
        · obtain ⟨c', hc⟩ := handleConnect_steady (c := c) (i := i) (a := a) ht (fun n hn => hres rfl hn)
          exact Or.inr ⟨c', hc, qinv_handleConnect h hc⟩
        · refine Or.inr ⟨_, rfl, qinv_set h ?_, h.pend⟩
          intro n hn
          exact hres rfl (Conn.queued.inj hn)
  | connNext i =>
    simp only [step]
    split
    · exact Or.inr ⟨_, rfl, h⟩
    · rename_i a ha
      split
      · rename_i r hr
        obtain ⟨c', hc⟩ := handleConnect_steady (c := c) (i := i) (a := a) (r := r) ht (fun n hn => h.conn i a n ha (by rw [hr, hn]))
        exact Or.inr ⟨c', hc, qinv_handleConnect h hc⟩
      · exact Or.inr ⟨_, rfl, h⟩
  | timeout i =>
    simp only [step]
    split
    · exact Or.inr ⟨_, rfl, h⟩
    · rename_i a ha
      split
      · exact Or.inr ⟨_, rfl, h⟩
      · split
        · exact Or.inr ⟨_, rfl, h⟩
        · refine Or.inr ⟨_, rfl, qinv_set h ?_, h.pend⟩
          intro q hq
          dsimp only at hq
          split at hq
          · cases hq
          · exact h.conn i a q ha hq
  | listen =>
    simp only [step]
    split
    · exact Or.inr ⟨_, rfl, h⟩
    · exact Or.inr ⟨_, rfl, h.conn, h.pend⟩
  | accept ep q o =>
    have hq := hs.2 ep q o rfl
    have h' : QInv { c with accepting := false } := ⟨h.conn, h.pend⟩
    simp only [step]
    split
    · exact Or.inr ⟨_, rfl, h⟩
    · split
      · obtain ⟨c', hc⟩ := handleAccept_steady (c := { c with accepting := false }) (x := some (ep, q)) ht (by intro _ _ e; cases e; exact hq)
        exact Or.inr ⟨c', hc, qinv_handleAccept h' hc⟩
      · exact Or.inr ⟨_, rfl, h.conn, by intro _ _ e; cases e; exact hq⟩
  | acceptFail o =>
    have h' : QInv { c with accepting := false } := ⟨h.conn, h.pend⟩
    simp only [step]
    split
    · exact Or.inr ⟨_, rfl, h⟩
    · split
      · exact Or.inr ⟨_, rfl, h.conn, h.pend⟩
      · exact Or.inr ⟨_, rfl, h.conn, by intro _ _ e; cases e⟩
  | acceptNext =>
    have h' : QInv { c with pending := none } := ⟨h.conn, by intro _ _ e; cases e⟩
    simp only [step]
    split
    · exact Or.inr ⟨_, rfl, h⟩
    · rename_i x hx
      obtain ⟨c', hc⟩ := handleAccept_steady (c := { c with pending := none }) (x := x) ht (fun ep q e => h.pend ep q (by rw [hx, e]))
      exact Or.inr ⟨c', hc, qinv_handleAccept h' hc⟩

/-- C93: if connections are not reset while their faces are created, and messages of level TRACE are not logged, no exception escapes from the
channel (the transports of its faces are the subject of C80). Missing: otherwise it may, see `C93_crash`. -/
theorem C93_safe_partial (cfg : Cfg) (es : List Event) (ht : cfg.trace = false) (hs : Steady es) (f : Fault) (h : run cfg Chan.init es = .error f) :
    ∃ g, f = .transport g := by
  have key : ∀ (es : List Event) (c0 : Chan), run cfg c0 es = .error f → Steady es → QInv c0 → ∃ g, f = .transport g := by
    intro es
    induction es with
    | nil => intro c0 h; cases h
    | cons e es ih =>
      intro c0 h hs hq
      rcases step_steady (cfg := cfg) ht hq (hs e List.mem_cons_self) with ⟨g, hg⟩ | ⟨c1, h1, h2⟩
      · simp only [run, hg, bind, Except.bind] at h
        cases h; exact ⟨g, rfl⟩
      · simp only [run, h1, bind, Except.bind] at h
        exact ih c1 h (fun x hx => hs x (List.mem_cons_of_mem _ hx)) h2
  exact key es Chan.init h hs ⟨by intro i a q ha; simp [Chan.init] at ha, by intro ep q e; cases e⟩

/-- The hypotheses of `C93_safe_partial` do not exclude that the transport of a face ends the run. -/
example : Steady [.listen, .accept 1 4 true, .accept 2 0 true, .connect 7 .persistent, .connected 0 (some 6) true] ∧
    okWith (run plain Chan.init [.listen, .accept 1 4 true, .accept 2 0 true, .connect 7 .persistent, .connected 0 (some 6) true])
      (fun c => c.out == [.accepted 1 0, .acceptNoEndpoint, .answer 0 (.created 1) 0]) = true := by
  refine ⟨?_, by decide +kernel⟩
  intro e he
  simp only [List.mem_cons, List.not_mem_nil, or_false] at he
  constructor
  · intro i q o h
    rcases he with rfl | rfl | rfl | rfl | rfl <;> simp at h
    omega
  · intro ep q o h
    rcases he with rfl | rfl | rfl | rfl | rfl <;> simp at h <;> omega

/-- C93 is violated: a peer that connects and resets the connection at the right moment ends NFD, and so does, when messages of level TRACE are
logged, every peer that resets its connection before it is handled, and every connection that is established just before its timeout. -/
theorem C93_crash : run plain Chan.init [.listen, .accept 1 2 true] = .error .exception ∧
    run { plain with trace := true } Chan.init [.listen, .accept 1 0 true] = .error .exception ∧
    run { plain with trace := true } Chan.init [.connect 1 .persistent, .tick 8000, .connected 0 (some 9) false, .timeout 0, .connNext 0] = .error .exception :=
  ⟨errIs_eq (by decide +kernel), errIs_eq (by decide +kernel), errIs_eq (by decide +kernel)⟩

end Verif.Ch
