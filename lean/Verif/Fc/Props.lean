import Verif.Fc.Run

namespace Verif.Fc
open Verif.FaceCmd (Persistency Opts)

variable {e : Env} {s s' : St} {ev : Ev} {evs : List Ev}

/-! ### Answers -/

theorem answers_snoc {s s' : St} {i : Nat} {a : Answer} (h : s'.out = s.out ++ [(i, a)]) (j : Nat) :
    answers s' j = answers s j + (if i = j then 1 else 0) := by
  unfold answers
  rw [h, List.filter_append, List.length_append]
  by_cases hij : i = j <;> simp [hij, List.filter_cons]

theorem answers_same {s s' : St} (h : s'.out = s.out) (j : Nat) : answers s' j = answers s j := by
  unfold answers; rw [h]

theorem answered_push {s s' : St} {r : Req} {a : Answer} (ha : Answered s) (hr : s'.reqs = s.reqs ++ [⟨r, none⟩])
    (ho : s'.out = s.out ++ [(s.reqs.length, a)]) : Answered s' := by
  intro j
  rw [answers_snoc ho j, ha j, hr]
  by_cases hj : j < s.reqs.length
  · rw [List.getElem?_append_left hj, if_neg (by omega)]
    rfl
  · by_cases hj2 : s.reqs.length = j
    · subst hj2
      simp
    · rw [if_neg hj2]
      have h1 : s.reqs[j]? = none := by simp; omega
      have h2 : (s.reqs ++ [⟨r, none⟩])[j]? = none := by simp; omega
      rw [h1, h2]

theorem answered_end {s s' : St} {p : Pending} {c : Chan} {i : Nat} {a : Answer} (ha : Answered s) (hp : s.reqs[i]? = some p) (hc : p.waiting = some c)
    (hr : s'.reqs = s.reqs.set i ⟨p.req, none⟩) (ho : s'.out = s.out ++ [(i, a)]) : Answered s' := by
  have hi : i < s.reqs.length := (List.getElem?_eq_some_iff.mp hp).1
  intro j
  rw [answers_snoc ho j, ha j, hr]
  by_cases hij : i = j
  · subst hij
    rw [List.getElem?_set_self hi, hp]
    obtain ⟨x, y⟩ := p
    dsimp only at hc
    subst hc
    simp
  · rw [List.getElem?_set_ne hij, if_neg hij]
    rfl

theorem answered_wait {s s' : St} {r : Req} {c : Chan} (ha : Answered s) (hr : s'.reqs = (s.reqs ++ [(⟨r, none⟩ : Pending)]).set s.reqs.length ⟨r, some c⟩)
    (ho : s'.out = s.out) : Answered s' := by
  intro j
  rw [answers_same ho j, ha j, hr]
  by_cases hij : s.reqs.length = j
  · subst hij
    rw [List.getElem?_set_self (by simp)]
    simp
  · rw [List.getElem?_set_ne hij]
    by_cases hj : j < s.reqs.length
    · rw [List.getElem?_append_left hj]
    · have h1 : s.reqs[j]? = none := by simp; omega
      have h2 : (s.reqs ++ [⟨r, none⟩])[j]? = none := by simp; omega
      rw [h1, h2]

theorem frame_add (s : St) (k : Nat) : (add s k).reqs = s.reqs ∧ (add s k).out = s.out := by
  unfold add
  split
  · exact ⟨rfl, rfl⟩
  · split <;> exact ⟨rfl, rfl⟩

/-- Only commands and the ends of connection attempts change the record of commands and answers. -/
theorem frame_rest (h : step e s ev = some s') (h1 : ∀ r sys, ev ≠ .create r sys) (h2 : ∀ i x, ev ≠ .connected i x) :
    s'.reqs = s.reqs ∧ s'.out = s.out := by
  cases ev with
  | create r sys => exact absurd rfl (h1 r sys)
  | connected i x => exact absurd rfl (h2 i x)
  | incoming c ep isLocal =>
    cases h
    unfold incoming
    split
    · split
      · exact frame_add _ _
      · exact ⟨rfl, rfl⟩
    · exact frame_add _ _
  | config a b => cases h; exact ⟨rfl, rfl⟩
  | update k g => cases h; unfold setFace; split <;> exact ⟨rfl, rfl⟩
  | close k => cases h; unfold setFace; split <;> exact ⟨rfl, rfl⟩
  | settle k =>
    cases h
    unfold settle
    split
    · exact ⟨rfl, rfl⟩
    · split <;> exact ⟨rfl, rfl⟩

theorem answered_step (hi : Inv s) (ha : Answered s) (h : step e s ev = some s') : Answered s' := by
  cases ev with
  | create r sys =>
    cases create_spec hi h with
    | bad _ => exact answered_push ha rfl rfl
    | unsupported _ _ _ _ => exact answered_push ha rfl rfl
    | noChannel _ _ _ _ _ _ _ => exact answered_push ha rfl rfl
    | goes sch ep f c _ h1 h2 h3 h4 h5 =>
      rcases h5.reqs with ⟨q1, a, q2⟩ | ⟨q1, q2, -⟩
      · exact answered_push ha q1 q2
      · exact answered_wait ha q1 q2
  | connected i x =>
    cases connected_spec hi h with
    | nothing _ => exact ha
    | failed p c code h1 h2 _ => exact answered_end ha h1 h2 rfl rfl
    | ok p c ep isLocal _ h1 h2 h3 h4 h5 =>
      rcases h4.reqs with ⟨q1, a, q2⟩ | ⟨q1, q2, -⟩
      · exact answered_end ha h1 h2 q1 q2
      · exfalso
        rw [h5] at q1
        have hlt : i < s.reqs.length := (List.getElem?_eq_some_iff.mp h1).1
        have hh := congrArg (fun l : List Pending => l[i]?) q1
        simp [hlt] at hh
  | _ =>
    obtain ⟨q1, q2⟩ := frame_rest h (by intros; nofun) (by intros; nofun)
    intro j
    rw [answers_same q2, ha j, q1]

theorem answered_run : ∀ {evs : List Ev} {s s' : St}, Inv s → Answered s → run e s evs = some s' → Answered s'
  | [], s, s', _, ha, h => by cases h; exact ha
  | ev :: l, s, s', hi, ha, h => by
    unfold run at h
    cases hs : step e s ev with
    | none => rw [hs] at h; cases h
    | some s1 =>
      rw [hs] at h
      exact answered_run (inv_step hi hs) (answered_step hi ha hs) h

/-- C99. Every command is answered exactly once, or it waits for a TCP connection and has not been answered; nobody else gets an answer. -/
theorem C99_once (h : run e init evs = some s) (i : Nat) :
    (i < s.reqs.length ∧ ¬ Waits s i → answers s i = 1) ∧ (Waits s i → answers s i = 0) ∧ (s.reqs.length ≤ i → answers s i = 0) := by
  have ha := answered_run inv_init (by intro j; simp [answers, init]) h i
  refine ⟨fun ⟨h1, h2⟩ => ?_, fun ⟨p, c, h1, h2⟩ => ?_, fun h1 => ?_⟩
  · obtain ⟨p, hp⟩ : ∃ p, s.reqs[i]? = some p := ⟨s.reqs[i], by simp [h1]⟩
    rw [hp] at ha
    obtain ⟨r, w⟩ := p
    cases w with
    | none => exact ha
    | some c => exact absurd ⟨_, c, hp, rfl⟩ h2
  · rw [h1] at ha
    obtain ⟨r, w⟩ := p
    dsimp only at h2
    subst h2
    exact ha
  · have : s.reqs[i]? = none := by simp; omega
    rw [this] at ha
    exact ha

/-! ### The queue of connection attempts -/

theorem queue_step (hi : Inv s) (hq : Queue e s) (h : step e s ev = some s') : Queue e s' := by
  have old : ∀ {l : List Pending} {r : Req}, l = s.reqs ++ [⟨r, none⟩] → ∀ (i : Nat) (p : Pending) (c : Chan), l[i]? = some p → p.waiting = some c →
      s.reqs[i]? = some p := by
    intro l r hl i p c hp hc
    rw [hl] at hp
    by_cases hlt : i < s.reqs.length
    · rw [List.getElem?_append_left hlt] at hp
      exact hp
    · have h1 := (List.getElem?_eq_some_iff.mp hp).1
      simp at h1
      have : i = s.reqs.length := by omega
      subst this
      simp at hp
      subst hp
      cases hc
  have gone : ∀ {l : List Pending} {i0 : Nat} {r : Req}, l = s.reqs.set i0 ⟨r, none⟩ → ∀ (i : Nat) (p : Pending) (c : Chan), l[i]? = some p →
      p.waiting = some c → s.reqs[i]? = some p := by
    intro l i0 r hl i p c hp hc
    rw [hl] at hp
    by_cases hij : i0 = i
    · subst hij
      have h1 := (List.getElem?_eq_some_iff.mp hp).1
      rw [List.getElem?_set_self (by simpa using h1)] at hp
      cases hp
      cases hc
    · rw [List.getElem?_set_ne hij] at hp
      exact hp
  cases ev with
  | create r sys =>
    cases create_spec hi h with
    | bad _ => exact fun i p c hp hc => hq i p c (old rfl i p c hp hc) hc
    | unsupported _ _ _ _ => exact fun i p c hp hc => hq i p c (old rfl i p c hp hc) hc
    | noChannel _ _ _ _ _ _ _ => exact fun i p c hp hc => hq i p c (old rfl i p c hp hc) hc
    | goes sch ep f c _ h1 h2 h3 h4 h5 =>
      rcases h5.reqs with ⟨q1, a, q2⟩ | ⟨q1, q2, q3⟩
      · exact fun i p c hp hc => hq i p c (old q1 i p c hp hc) hc
      · intro i p c' hp hc
        rw [q1] at hp
        by_cases hij : s.reqs.length = i
        · subst hij
          rw [List.getElem?_set_self (by simp [record])] at hp
          cases hp
          cases hc
          obtain ⟨l, l', hl1, hl2, hl3⟩ := h4
          have hft : f = .tcp := by rw [← hl2.1]; exact q3
          subst hft
          exact ⟨q3, sch, ep, h1, h3, hl2.2.2 (by decide)⟩
        · rw [List.getElem?_set_ne hij] at hp
          exact hq i p c' (old rfl i p c' hp hc) hc
  | connected i0 x =>
    cases connected_spec hi h with
    | nothing _ => exact hq
    | failed p c code h1 h2 _ => exact fun i p c hp hc => hq i p c (gone rfl i p c hp hc) hc
    | ok p c ep isLocal _ h1 h2 h3 h4 h5 => exact fun i p c hp hc => hq i p c (gone h5 i p c hp hc) hc
  | _ =>
    obtain ⟨q1, q2⟩ := frame_rest h (by intros; nofun) (by intros; nofun)
    intro i p c hp hc
    rw [q1] at hp
    exact hq i p c hp hc

theorem queue_run : ∀ {evs : List Ev} {s s' : St}, Inv s → Queue e s → run e s evs = some s' → Queue e s'
  | [], s, s', _, ha, h => by cases h; exact ha
  | ev :: l, s, s', hi, ha, h => by
    unfold run at h
    cases hs : step e s ev with
    | none => rw [hs] at h; cases h
    | some s1 =>
      rw [hs] at h
      exact queue_run (inv_step hi hs) (queue_step hi ha hs) h

theorem reach_inv (h : run e init evs = some s) : Inv s := inv_run inv_init h

theorem reach_queue (h : run e init evs = some s) : Queue e s := queue_run inv_init (by intro i p c hp; simp [init] at hp) h

/-! ### Registered faces -/

/-- Living faces without FaceId satisfy `P`; true of no face or of Ethernet faces. -/
def Unlisted (P : Face → Prop) (s : St) : Prop :=
  ∀ (k : Nat) (f : Face), s.faces[k]? = some f → f.st ≠ .closed → f.id = none → P f

theorem unlisted_push {P : Face → Prop} {s s' : St} {f : Face} (hu : Unlisted P s) (h : s'.faces = s.faces ++ [f]) (hf : f.id = none → P f) :
    Unlisted P s' := by
  intro k g hg h1 h2
  rw [h] at hg
  rcases getElem?_append_new hg with hg | ⟨-, h3⟩
  · exact hu k g hg h1 h2
  · subst h3
    exact hf h2

theorem unlisted_set {P : Face → Prop} {s s' : St} {k : Nat} {f : Face} (hu : Unlisted P s) (h : s'.faces = s.faces.set k f)
    (hf : f.st ≠ .closed → f.id = none → P f) : Unlisted P s' := by
  intro k' g hg h1 h2
  rw [h] at hg
  rcases set_get hg with ⟨-, h3, -⟩ | ⟨-, h3⟩
  · subst h3
    exact hf h1 h2
  · exact hu k' g h3 h1 h2

theorem Does.unlisted {P : Face → Prop} {s s' : St} {i : Nat} {r : Req} {ep : Ep} {c : Chan} {b : Bool} (hu : Unlisted P s)
    (hb : b = false → ∀ f : Face, f.chan.proto = .ether → P f) (h : Does e s i r ep c b s') : Unlisted P s' := by
  cases h with
  | old k n f h1 h2 h3 => exact hu
  | ghost k f h1 h2 h3 h4 => exact unlisted_set hu rfl (fun _ h => by cases h)
  | new b f h1 h2 h3 => exact unlisted_push hu rfl (fun h => by cases h)
  | half h1 h2 h3 => exact unlisted_push hu rfl (fun _ => hb h2 _ h3)
  | fail code h1 h2 h3 => exact hu
  | wait h1 h2 => exact hu

theorem unlisted_step {P : Face → Prop} (hi : Inv s) (hu : Unlisted P s)
    (hP : ∀ f f' : Face, f.chan = f'.chan → P f → P f')
    (hb : ¬ FilterOk ev → ∀ f : Face, f.chan.proto = .ether → P f) (h : step e s ev = some s') : Unlisted P s' := by
  cases ev with
  | create r sys =>
    have hu0 : Unlisted P (record s r) := hu
    cases create_spec hi h with
    | bad _ => exact hu
    | unsupported _ _ _ _ => exact hu
    | noChannel _ _ _ _ _ _ _ => exact hu
    | goes sch ep f c _ h1 h2 h3 h4 h5 =>
      refine h5.unlisted hu0 (fun hs => hb (fun h => h ?_))
      simpa using hs
  | connected i x =>
    cases connected_spec hi h with
    | nothing _ => exact hu
    | failed p c code h1 h2 _ => exact hu
    | ok p c ep isLocal _ h1 h2 h3 h4 h5 =>
      have hu0 : Unlisted P { s with reqs := s.reqs.set i ⟨p.req, none⟩ } := hu
      exact h4.unlisted hu0 (fun h => by cases h)
  | incoming c ep isLocal =>
    cases h
    unfold incoming
    cases hl : s.map.lookup (c, ep) with
    | some k =>
      dsimp only
      split
      · unfold add
        split
        · exact hu
        · split
          · exact hu
          · exact unlisted_set hu rfl (fun _ h => by cases h)
      · exact hu
    | none =>
      dsimp only
      rw [add_mkFace]
      exact unlisted_push hu rfl (fun h => by cases h)
  | config a b => cases h; exact hu
  | update k g =>
    cases h
    unfold setFace
    split
    · exact hu
    · rename_i f hf
      exact unlisted_set hu rfl (fun h1 h2 => hP f _ rfl (hu k f hf h1 h2))
  | close k =>
    cases h
    unfold setFace
    split
    · exact hu
    · rename_i f hf
      refine unlisted_set hu rfl ?_
      dsimp only
      split
      · rename_i hup
        exact fun h1 h2 => hP f _ rfl (hu k f hf (by rw [hup]; decide) h2)
      · exact hu k f hf
  | settle k =>
    cases h
    unfold settle
    split
    · exact hu
    · split
      · exact unlisted_set hu rfl (fun h => absurd rfl h)
      · exact hu

theorem unlisted_run {P : Face → Prop} (hP : ∀ f f' : Face, f.chan = f'.chan → P f → P f') :
    ∀ {evs : List Ev} {s s' : St}, Inv s → Unlisted P s → (∀ ev ∈ evs, ¬ FilterOk ev → ∀ f : Face, f.chan.proto = .ether → P f) →
      run e s evs = some s' → Unlisted P s'
  | [], s, s', _, ha, _, h => by cases h; exact ha
  | ev :: l, s, s', hi, ha, hb, h => by
    unfold run at h
    cases hs : step e s ev with
    | none => rw [hs] at h; cases h
    | some s1 =>
      rw [hs] at h
      exact unlisted_run hP (inv_step hi hs) (unlisted_step hi ha hP (hb ev List.mem_cons_self) hs) (fun x hx => hb x (List.mem_cons_of_mem _ hx)) h

theorem reach_ghosts (h : run e init evs = some s) : Ghosts s :=
  unlisted_run (P := fun f => f.chan.proto = .ether) (fun f f' hc hp => by rw [← hc]; exact hp) inv_init
    (by intro k f hf; simp [init] at hf) (fun _ _ _ _ hf => hf) h

theorem reach_registered (h : run e init evs = some s) (hf : ∀ ev ∈ evs, FilterOk ev) : Unlisted (fun _ => False) s :=
  unlisted_run (P := fun _ => False) (fun _ _ _ hp => hp) inv_init
    (by intro k f hf; simp [init] at hf) (fun ev hev hn => absurd (hf ev hev) hn) h

/-- C99. At any time there is at most one face that is not closed for each channel and remote endpoint, no FaceId is used twice, no closed face
has one, and the FaceIds up to 255 are not used. -/
theorem C99_unique (h : run e init evs = some s) :
    (∀ (j k : Nat) (f g : Face), s.faces[j]? = some f → s.faces[k]? = some g → f.st ≠ .closed → g.st ≠ .closed → f.chan = g.chan → f.ep = g.ep → j = k) ∧
    (∀ id j k, InTable s id j → InTable s id k → j = k) ∧
    (∀ (id k : Nat) (f : Face), s.faces[k]? = some f → f.id = some id → 255 < id ∧ f.st ≠ .closed) := by
  have hi := reach_inv h
  refine ⟨?_, ?_, ?_⟩
  · intro j k f g hf hg h1 h2 h3 h4
    have a := hi.m2 j f hf h1
    have b := hi.m2 k g hg h2
    rw [h3, h4] at a
    exact map_key_unique hi a b
  · rintro id j k ⟨f, h1, h2⟩ ⟨g, h3, h4⟩
    exact hi.i2 j k f g id h1 h3 h2 h4
  · intro id k f hf hid
    obtain ⟨a, -, b⟩ := hi.i1 k f id hf hid
    exact ⟨a, b⟩

/-- C99. Unless a packet filter of an Ethernet channel could not be changed, every face that is not closed is in the face table. -/
theorem C99_registered_partial (h : run e init evs = some s) (hf : ∀ ev ∈ evs, FilterOk ev) (k : Nat) (f : Face) (hk : s.faces[k]? = some f)
    (hs : f.st ≠ .closed) : ∃ id, InTable s id k := by
  cases hid : f.id with
  | some n => exact ⟨n, f, hk, hid⟩
  | none => exact (reach_registered h hf k f hk hs hid).elim

/-! ### The answers to a command -/

/-- C99. Refusals, exactly: 400 for URIs that are malformed or not canonical; 406 if no factory that serves the scheme can do what is asked; 504 if
no channel can. The command changes nothing then. In all other cases it goes on to the first channel that can. -/
theorem C99_refused (h : run e init evs = some s) (r : Req) (sys : Sys) (hs : step e s (.create r sys) = some s') :
    ((¬ ∃ sch ep, WellFormed r sch ep) → s' = answer (record s r) s.reqs.length ⟨400, none, none⟩) ∧
    (∀ sch ep, WellFormed r sch ep → (∀ f, s.schemes.lookup sch = some f → ¬ Suits e r ep f) →
      s' = answer (record s r) s.reqs.length ⟨406, none, none⟩) ∧
    (∀ sch ep f, WellFormed r sch ep → s.schemes.lookup sch = some f → Suits e r ep f → (∀ c ∈ s.channels, ¬ Serves r ep f c) →
      s' = answer (record s r) s.reqs.length ⟨504, none, none⟩) := by
  have hw : ∀ {a b a' b'}, WellFormed r a b → WellFormed r a' b' → a = a' ∧ b = b' := by
    intro a b a' b' h1 h2
    have := h1.1
    rw [h2.1] at this
    cases this
    exact ⟨rfl, rfl⟩
  cases create_spec (reach_inv h) hs with
  | bad h1 =>
    exact ⟨fun _ => rfl, fun a b c => absurd ⟨a, b, c⟩ h1, fun a b _ c => absurd ⟨a, b, c⟩ h1⟩
  | unsupported sch ep h1 h2 =>
    refine ⟨fun h => absurd ⟨_, _, h1⟩ h, fun _ _ _ _ => rfl, fun a b f h3 h4 h5 => ?_⟩
    obtain ⟨rfl, rfl⟩ := hw h1 h3
    exact absurd h5 (h2 f h4)
  | noChannel sch ep f h1 h2 h3 h4 =>
    refine ⟨fun h => absurd ⟨_, _, h1⟩ h, fun a b h5 h6 => ?_, fun _ _ _ _ _ _ _ => rfl⟩
    obtain ⟨rfl, rfl⟩ := hw h1 h5
    exact absurd h3 (h6 f h2)
  | goes sch ep f c _ h1 h2 h3 h4 h5 =>
    obtain ⟨l, l', hl1, hl2, hl3⟩ := h4
    refine ⟨fun h => absurd ⟨_, _, h1⟩ h, fun a b h5 h6 => ?_, fun a b f' h5 h6 h7 h8 => ?_⟩
    · obtain ⟨rfl, rfl⟩ := hw h1 h5
      exact absurd h3 (h6 f h2)
    · obtain ⟨rfl, rfl⟩ := hw h1 h5
      rw [h2] at h6
      cases h6
      exact absurd hl2 (h8 c (by rw [hl1]; simp))

theorem newFace_asRequested {r : Req} {ep : Ep} {c : Chan} {isLocal : Bool} {id : Option Nat} {f0 : Ep} {p : Factory} (hs : Suits e r f0 p)
    (hc : c.proto = p) (hl : (newFace e c ep r.persistency r.params isLocal id).f.isLocal = true ∨ wantLocal r = false) :
    AsRequested e r (newFace e c ep r.persistency r.params isLocal id) := by
  have hmtu : ∀ m : Nat, m < 2 ^ 63 → FaceCmd.actualMtu m = m := by
    intro m hm
    unfold FaceCmd.actualMtu FaceCmd.ssizeMax
    omega
  have hno : noOverride = ((2 ^ 63 - 1 : Nat) : Int) := rfl
  refine ⟨rfl, rfl, ?_, ?_, ?_, ?_⟩
  · refine ⟨options e c r.params, rfl, ?_, ?_, ?_, ?_⟩
    · cases hs with
      | tcp _ _ _ _ => simp only [options, hc, if_true]; cases r.params.localFields <;> simp
      | udp _ _ h3 _ _ => simp only [options, hc]; simp [h3]
      | ether _ _ _ h3 _ _ => simp only [options, hc]; simp [h3]
    · simp only [options]; cases r.params.reliability <;> simp
    · intro hne
      have hne' : c.proto ≠ .ether := hne
      simp only [options, if_neg hne']
      refine ⟨?_, ?_, ?_, ?_, ?_, ?_⟩
      · intro b hb; rw [hb]; rfl
      · intro hb; rw [hb]; rfl
      · intro b hb; rw [hb]; rfl
      · intro hb; rw [hb]; rfl
      · intro b hb; rw [hb]; rfl
      · intro hb; rw [hb]; rfl
    · intro he
      have he' : c.proto = .ether := he
      simp only [options, if_pos he']
      exact ⟨trivial, trivial, trivial⟩
  · intro h
    rcases hl with hl | hl
    · exact hl
    · rw [wantLocal_iff.mpr h] at hl; cases hl
  · intro m hm hlt
    cases hs with
    | tcp _ _ _ h4 => rw [h4] at hm; cases hm
    | udp _ _ _ _ _ => simp [FaceCmd.getMtu, newFace, options, hc, hm, hmtu m hlt]
    | ether _ _ _ _ _ _ => simp [FaceCmd.getMtu, newFace, options, hc, hm, hmtu m hlt]
  · intro hm
    cases hs with
    | tcp _ _ _ h4 =>
      simp [FaceCmd.getMtu, newFace, options, hc, hno, FaceCmd.mtuUnlimited]
      decide
    | udp _ _ _ _ _ => simp [FaceCmd.getMtu, newFace, options, hc, hm]
    | ether _ _ _ _ _ _ => simp [FaceCmd.getMtu, newFace, options, hc, hm, hno]

theorem snoc_inj {α : Type} {l : List α} {a b : α} (h : l ++ [a] = l ++ [b]) : a = b := by
  have := List.append_cancel_left h
  cases this
  rfl

theorem snoc_ne {α : Type} {l : List α} {a : α} (h : l = l ++ [a]) : False := by
  have := congrArg List.length h
  simp at this

/-- What `Does` says about each code. -/
theorem Does.codes {s0 s' : St} {i j : Nat} {r : Req} {ep : Ep} {c : Chan} {b : Bool} {a : Answer} {f0 : Ep} {p : Factory} (hi : Inv s0)
    (hu : Unlisted (fun _ => False) s0) (hs : Suits e r f0 p) (hc : c.proto = p)
    (h : Does e s0 i r ep c b s') (ho : s'.out = s0.out ++ [(j, a)]) :
    j = i ∧
    (a.code = 200 → ∃ f, s'.faces = s0.faces ++ [f] ∧ f.chan = c ∧ f.ep = ep ∧ f.id = some (s0.last + 1) ∧ AsRequested e r f ∧
      a.face = some s0.faces.length ∧ a.body = some (FaceCmd.makeUpdateFaceResponse (s0.last + 1) f.f)) ∧
    (a.code = 409 → s'.faces = s0.faces ∧ ∃ k f id, s0.faces[k]? = some f ∧ f.chan = c ∧ f.ep = ep ∧ f.id = some id ∧
      a.face = some k ∧ a.body = some (FaceCmd.makeUpdateFaceResponse id f.f)) ∧
    (a.code ≠ 200 → a.code ≠ 409 → a.body = none ∧ a.face = none ∧ (b = true → s'.faces = s0.faces)) := by
  cases h with
  | old k n f h1 h2 h3 =>
    cases snoc_inj ho
    refine ⟨rfl, fun h => (by cases h), fun _ => ⟨rfl, k, f, n, h2, ?_, ?_, h3, rfl, rfl⟩, fun _ h => absurd rfl h⟩
    · obtain ⟨g, hg, q, -, -⟩ := hi.m1 _ _ _ (lookup_mem h1); rw [h2] at hg; cases hg; exact q
    · obtain ⟨g, hg, -, q, -⟩ := hi.m1 _ _ _ (lookup_mem h1); rw [h2] at hg; cases hg; exact q
  | ghost k f h1 h2 h3 h4 =>
    obtain ⟨g, hg, -, -, q⟩ := hi.m1 _ _ _ (lookup_mem h1)
    rw [h2] at hg
    cases hg
    exact (hu k f h2 q h3).elim
  | new b f h1 h2 h3 =>
    cases snoc_inj ho
    subst h2
    exact ⟨rfl, fun _ => ⟨_, rfl, rfl, rfl, rfl, newFace_asRequested hs hc h3, rfl, rfl⟩, fun h => (by cases h), fun h => absurd rfl h⟩
  | half h1 h2 h3 =>
    cases snoc_inj ho
    refine ⟨rfl, fun h => (by cases h), fun h => (by cases h), fun _ _ => ⟨rfl, rfl, fun h => by rw [h2] at h; cases h⟩⟩
  | fail code h1 h2 h3 =>
    cases snoc_inj ho
    refine ⟨rfl, fun h => ?_, fun h => ?_, fun _ _ => ⟨rfl, rfl, fun _ => rfl⟩⟩
    · dsimp only at h; omega
    · dsimp only at h; omega
  | wait h1 h2 => exact (snoc_ne ho).elim

/-- C99. What an answer means. It belongs to a command `r`. 200: a new face was made, as requested, with a FaceId never used before, and put into
the face table; nothing else changed among the faces; the answer describes this face. 409: there is a face with this endpoint in the face
table; the answer describes it, and it and all others are as before. Any other code: no face was made or changed, and no face is described.
The endpoint of a UDP or Ethernet face is the one of the command; so is that of a TCP face, if the connection leads to where it was to lead. -/
theorem C99_answer_partial (h : run e init evs = some s) (hf : ∀ x ∈ evs, FilterOk x) (hev : FilterOk ev) (hs : step e s ev = some s')
    {i : Nat} {a : Answer} (ho : s'.out = s.out ++ [(i, a)]) :
    ∃ r, Asked s' i r ∧
    (a.code = 200 → ∃ sch ep0 f, WellFormed r sch ep0 ∧ Serves r ep0 f.chan.proto f.chan ∧ s'.faces = s.faces ++ [f] ∧ InTable s' (s.last + 1) s.faces.length ∧
      f.id = some (s.last + 1) ∧ (∀ g ∈ s.faces, ∀ id, g.id = some id → id < s.last + 1) ∧ AsRequested e r f ∧
      (f.ep = ep0 ∨ ∃ b, ev = .connected i (.ok f.ep b)) ∧ a.face = some s.faces.length ∧
      a.body = some (FaceCmd.makeUpdateFaceResponse (s.last + 1) f.f)) ∧
    (a.code = 409 → ∃ sch ep0 k id f, WellFormed r sch ep0 ∧ Serves r ep0 f.chan.proto f.chan ∧ s'.faces = s.faces ∧ s.faces[k]? = some f ∧ f.id = some id ∧
      (f.ep = ep0 ∨ ∃ b, ev = .connected i (.ok f.ep b)) ∧ a.face = some k ∧ a.body = some (FaceCmd.makeUpdateFaceResponse id f.f)) ∧
    (a.code ≠ 200 → a.code ≠ 409 → a.body = none ∧ a.face = none ∧ s'.faces = s.faces) := by
  have hi := reach_inv h
  have hu := reach_registered h hf
  have hids : ∀ g ∈ s.faces, ∀ id, g.id = some id → id < s.last + 1 := by
    intro g hg id hid
    obtain ⟨k, hk, rfl⟩ := List.getElem_of_mem hg
    have := (hi.i1 k _ id (by simp [hk]) hid).2.1
    omega
  cases ev with
  | create r sys =>
    have hi0 : Inv (record s r) := hi.of_eq rfl rfl rfl
    have hu0 : Unlisted (fun _ => False) (record s r) := hu
    have hnone : ∀ code : Nat, code ≠ 200 → code ≠ 409 → s' = answer (record s r) s.reqs.length ⟨code, none, none⟩ → 
        a = ⟨code, none, none⟩ ∧ i = s.reqs.length ∧ s'.faces = s.faces ∧ s'.reqs = s.reqs ++ [⟨r, none⟩] := by
      intro code _ _ he
      subst he
      cases snoc_inj ho
      exact ⟨rfl, rfl, rfl, rfl⟩
    have hplain : ∀ code : Nat, code ≠ 200 → code ≠ 409 → s' = answer (record s r) s.reqs.length ⟨code, none, none⟩ →
        Asked s' i r ∧ a.code ≠ 200 ∧ a.code ≠ 409 ∧ a.body = none ∧ a.face = none ∧ s'.faces = s.faces := by
      intro code h1 h2 he
      obtain ⟨q1, q2, q3, q4⟩ := hnone code h1 h2 he
      subst q1 q2
      exact ⟨⟨⟨r, none⟩, by rw [q4]; simp, rfl⟩, h1, h2, rfl, rfl, q3⟩
    have hfin : ∀ {x : Prop} {y : Prop}, Asked s' i r ∧ a.code ≠ 200 ∧ a.code ≠ 409 ∧ a.body = none ∧ a.face = none ∧ s'.faces = s.faces →
        Asked s' i r ∧ (a.code = 200 → x) ∧ (a.code = 409 → y) ∧
        (a.code ≠ 200 → a.code ≠ 409 → a.body = none ∧ a.face = none ∧ s'.faces = s.faces) := by
      intro x y ⟨h1, h2, h3, h4, h5, h6⟩
      exact ⟨h1, fun h => absurd h h2, fun h => absurd h h3, fun _ _ => ⟨h4, h5, h6⟩⟩
    refine ⟨r, ?_⟩
    cases create_spec hi hs with
    | bad _ => exact hfin (hplain 400 (by decide) (by decide) rfl)
    | unsupported _ _ _ _ => exact hfin (hplain 406 (by decide) (by decide) rfl)
    | noChannel _ _ _ _ _ _ _ => exact hfin (hplain 504 (by decide) (by decide) rfl)
    | goes sch ep f c _ h1 h2 h3 h4 h5 =>
      obtain ⟨l, l', hl1, hl2, hl3⟩ := h4
      obtain ⟨c1, c2, c3, c4⟩ := h5.codes hi0 hu0 h3 hl2.1 ho
      rcases h5.reqs with ⟨q1, a', q2⟩ | ⟨q1, q2, -⟩
      · have hb : (sys != .filterError) = true := by simpa [FilterOk] using hev
        refine ⟨⟨⟨r, none⟩, by rw [q1, c1]; simp [record], rfl⟩, fun hcode => ?_, fun hcode => ?_, fun g1 g2 => ?_⟩
        · obtain ⟨g, d1, d2, d3, d4, d5, d6, d7⟩ := c2 hcode
          exact ⟨sch, ep, g, h1, by rw [d2, hl2.1]; exact hl2, d1, ⟨g, by rw [d1]; simp [record], d4⟩, d4, hids, d5, Or.inl d3, d6, d7⟩
        · obtain ⟨d0, k, g, id, d1, d2, d3, d4, d5, d6⟩ := c3 hcode
          exact ⟨sch, ep, k, id, g, h1, by rw [d2, hl2.1]; exact hl2, d0, d1, d4, Or.inl d3, d5, d6⟩
        · obtain ⟨d1, d2, d3⟩ := c4 g1 g2
          exact ⟨d1, d2, d3 hb⟩
      · rw [q2] at ho
        exact (snoc_ne ho).elim
  | connected i0 x =>
    cases connected_spec hi hs with
    | nothing _ => exact (snoc_ne ho).elim
    | failed p c code h1 h2 hx =>
      cases snoc_inj ho
      have hlt : i < s.reqs.length := (List.getElem?_eq_some_iff.mp h1).1
      refine ⟨p.req, ⟨⟨p.req, none⟩, by simp [answer, hlt], rfl⟩, fun hh => ?_, fun hh => ?_, fun _ _ => ⟨rfl, rfl, rfl⟩⟩
      · dsimp only at hh; omega
      · dsimp only at hh; omega
    | ok p c ep isLocal _ h1 h2 h3 h4 h5 =>
      have hlt : i0 < s.reqs.length := (List.getElem?_eq_some_iff.mp h1).1
      obtain ⟨q1, sch, ep0, q2, q3, q4⟩ := reach_queue h i0 p c h1 h2
      have hi0 : Inv { s with reqs := s.reqs.set i0 ⟨p.req, none⟩ } := hi.of_eq rfl rfl rfl
      have hu0 : Unlisted (fun _ => False) { s with reqs := s.reqs.set i0 ⟨p.req, none⟩ } := hu
      obtain ⟨c1, c2, c3, c4⟩ := h4.codes hi0 hu0 q3 q1 ho
      subst c1
      have hsv : Serves p.req ep0 c.proto c := ⟨rfl, fun h => (by rw [q1] at h; cases h), fun _ => q4⟩
      refine ⟨p.req, ⟨⟨p.req, none⟩, by rw [h5]; simp [hlt], rfl⟩, fun hcode => ?_, fun hcode => ?_, fun g1 g2 => ?_⟩
      · obtain ⟨g, d1, d2, d3, d4, d5, d6, d7⟩ := c2 hcode
        exact ⟨sch, ep0, g, q2, by rw [d2]; exact hsv, d1, ⟨g, by rw [d1]; simp, d4⟩, d4, hids, d5, Or.inr ⟨isLocal, by rw [h3, d3]⟩, d6, d7⟩
      · obtain ⟨d0, k, g, id, d1, d2, d3, d4, d5, d6⟩ := c3 hcode
        exact ⟨sch, ep0, k, id, g, q2, by rw [d2]; exact hsv, d0, d1, d4, Or.inr ⟨isLocal, by rw [h3, d3]⟩, d5, d6⟩
      · obtain ⟨d1, d2, d3⟩ := c4 g1 g2
        exact ⟨d1, d2, d3 rfl⟩
  | _ =>
    obtain ⟨q1, q2⟩ := frame_rest hs (by intros; nofun) (by intros; nofun)
    rw [q2] at ho
    exact (snoc_ne ho).elim

/-- C99. When its connection attempt ends, the command no longer waits: it is answered (C99_once). -/
theorem C99_ended (h : run e init evs = some s) {i : Nat} {x : Conn} (hs : step e s (.connected i x) = some s') : ¬ Waits s' i := by
  cases connected_spec (reach_inv h) hs with
  | nothing hn => exact hn
  | failed p c code h1 h2 hx =>
    have hlt : i < s.reqs.length := (List.getElem?_eq_some_iff.mp h1).1
    rintro ⟨p', c', q1, q2⟩
    simp [answer, hlt] at q1
    subst q1
    cases q2
  | ok p c ep isLocal _ h1 h2 h3 h4 h5 =>
    have hlt : i < s.reqs.length := (List.getElem?_eq_some_iff.mp h1).1
    rintro ⟨p', c', q1, q2⟩
    rw [h5] at q1
    simp [hlt] at q1
    subst q1
    cases q2

/-! ### Assertions -/

theorem succeed_total {s : St} {i k : Nat} {r : Req} (h : ∀ f, s.faces[k]? = some f → f.id = none → f.f.isLocal = false → wantLocal r = false) :
    ∃ s', succeed s i r k = some s' := by
  unfold succeed
  cases hf : s.faces[k]? with
  | none => exact ⟨_, rfl⟩
  | some f =>
    dsimp only
    cases hid : f.id with
    | some n => exact ⟨_, rfl⟩
    | none =>
      dsimp only
      split
      · rename_i hh
        rw [h f hf hid hh.1] at hh
        cases hh.2
      · exact ⟨_, rfl⟩

/-- C99. No command and no other event makes an assertion fail, provided that no canonical TCP URI has a multicast address, and that a TCP face is local if
local fields were asked for. The second condition holds if all loopback addresses count as local, as they do by default. -/
theorem C99_no_abort_partial (h : run e init evs = some s) (hg : Granted e s ev) : ∃ s', step e s ev = some s' := by
  have hi := reach_inv h
  have hgh := reach_ghosts h
  have hold : ∀ {c : Chan} {ep : Ep} {k i : Nat} {r : Req} {s0 : St}, s0.map = s.map → s0.faces = s.faces → s.map.lookup (c, ep) = some k →
      (c.proto = .ether → wantLocal r = false) → ∃ s', succeed s0 i r k = some s' := by
    intro c ep k i r s0 hm0 hf0 hl hw
    refine succeed_total (fun f hf hid _ => ?_)
    rw [hf0] at hf
    obtain ⟨g, g1, g2, -, g4⟩ := hi.m1 _ _ _ (lookup_mem hl)
    rw [hf] at g1
    cases g1
    have := hgh k f hf g4 hid
    exact hw (by rw [← g2]; exact this)
  have hnew : ∀ {c : Chan} {ep : Ep} {i : Nat} {r : Req} {s0 : St} (b : Bool), (wantLocal r = true → c.proto = .tcp ∧ b = true) →
      ∃ s', succeed (mkFace e s0 c ep r.persistency r.params b).1 i r (mkFace e s0 c ep r.persistency r.params b).2 = some s' := by
    intro c ep i r s0 b hw
    refine succeed_total (fun f hf _ hl => ?_)
    have : f = newFace e c ep r.persistency r.params b none := by
      simp only [mkFace, List.getElem?_concat_length, Option.some.injEq] at hf
      exact hf.symm
    subst this
    cases hwl : wantLocal r with
    | false => rfl
    | true =>
      obtain ⟨h1, h2⟩ := hw hwl
      simp [newFace, h1, h2] at hl
  cases ev with
  | create r sys =>
    show ∃ s', create e s r sys = some s'
    unfold create
    cases hu : r.uri with
    | malformed => exact ⟨_, rfl⟩
    | nonCanonical => exact ⟨_, rfl⟩
    | canonical sch ep =>
      dsimp only
      split
      · exact ⟨_, rfl⟩
      · cases hf : s.schemes.lookup sch with
        | none => exact ⟨_, rfl⟩
        | some f =>
          dsimp only
          have hc := choose_ok e { s with reqs := s.reqs ++ [⟨r, none⟩] } f r ep
          cases hch : choose e { s with reqs := s.reqs ++ [⟨r, none⟩] } f r ep with
          | none =>
            rw [hch] at hc
            obtain ⟨rfl, hm⟩ := hc
            have := hg sch ep hu hf
            rw [hm] at this
            cases this
          | some x =>
            cases x with
            | error code => exact ⟨_, rfl⟩
            | ok c =>
              rw [hch] at hc
              obtain ⟨hs, l, l', hl1, hl2, hl3⟩ := hc
              have hw : c.proto ≠ .tcp → wantLocal r = false := by
                intro hne
                cases hwl : wantLocal r with
                | false => rfl
                | true =>
                  rw [wantLocal_iff] at hwl
                  rw [hl2.1] at hne
                  cases hs with
                  | tcp _ _ _ _ => exact absurd rfl hne
                  | udp _ _ h3 _ _ => exact absurd hwl h3
                  | ether _ _ _ h3 _ _ => exact absurd hwl h3
              dsimp only
              unfold connect
              cases hl : s.map.lookup (c, ep) with
              | some k => exact hold rfl rfl hl (fun he => hw (by rw [he]; decide))
              | none =>
                dsimp only
                split
                · exact ⟨_, rfl⟩
                · rename_i hnt
                  have hw' : wantLocal r = true → c.proto = .tcp ∧ false = true := fun h => by rw [hw hnt] at h; cases h
                  cases sys with
                  | ok => exact hnew false hw'
                  | systemError => exact ⟨_, rfl⟩
                  | error => exact ⟨_, rfl⟩
                  | filterError =>
                    dsimp only
                    split
                    · exact ⟨_, rfl⟩
                    · exact hnew false hw'
  | connected i x =>
    show ∃ s', connected e s i x = some s'
    unfold connected
    cases hp : s.reqs[i]? with
    | none => exact ⟨_, rfl⟩
    | some p =>
      dsimp only
      cases hc : p.waiting with
      | none => exact ⟨_, rfl⟩
      | some c =>
        dsimp only
        obtain ⟨q1, sch, ep0, q2, q3, q4⟩ := reach_queue h i p c hp hc
        cases x with
        | refused => exact ⟨_, rfl⟩
        | lost => exact ⟨_, rfl⟩
        | ok ep isLocal =>
          dsimp only
          unfold findOrMake
          cases hl : s.map.lookup (c, ep) with
          | some k => exact hold rfl rfl hl (fun he => by rw [q1] at he; cases he)
          | none => exact hnew isLocal (fun hw => ⟨q1, hg p.req ⟨p, hp, rfl⟩ ⟨p, c, hp, hc⟩ (wantLocal_iff.mp hw)⟩)
  | incoming c ep isLocal => exact ⟨_, rfl⟩
  | config a b => exact ⟨_, rfl⟩
  | update k g => exact ⟨_, rfl⟩
  | close k => exact ⟨_, rfl⟩
  | settle k => exact ⟨_, rfl⟩

/-! ### Examples, and what goes wrong -/

def exEnv : Env := { loopback := fun ep => ep.host == 1, mcast := fun ep => ep.host == 224, mtu := fun _ _ => 1452, interval := 100, threshold := 65536 }
def udp4 : Chan := ⟨.udp, false, 0, true, 8800⟩
def tcp4 : Chan := ⟨.tcp, false, 0, true, 0⟩
def eth0 : Chan := ⟨.ether, false, 7, false, 0⟩
def exConfig : Ev := .config [("udp4", .udp), ("tcp4", .tcp), ("ether", .ether), ("unix", .other)] [eth0, tcp4, udp4]
def peer : Ep := ⟨false, 10, 6363⟩
def self : Ep := ⟨false, 1, 6363⟩
def dev : Ep := ⟨false, 7, 0⟩
def exReq (u : Uri) (p : FaceCmd.Params := { faceId := 0 }) (l : Option Uri := none) : Req := ⟨u, l, .persistent, p⟩
def udpReq : Req := exReq (.canonical "udp4" peer) { faceId := 0, mtu := some 1000, reliability := some true, congestion := some false }
def tcpReq : Req := exReq (.canonical "tcp4" self) { faceId := 0, localFields := some true }
def ethReq : Req := exReq (.canonical "ether" peer) { faceId := 0, mtu := some 1400, congestion := some true } (some (.canonical "dev" dev))
def ethReq2 : Req := exReq (.canonical "ether" peer) { faceId := 0, reliability := some true } (some (.canonical "dev" dev))

/-- The codes of the answers after a run. -/
def codes (r : Option St) : Option (List (Nat × Nat)) := r.map (fun s => s.out.map (fun x => (x.1, x.2.code)))

theorem reach_of_codes {r : Option St} {l : List (Nat × Nat)} (h : codes r = some l) : ∃ s, r = some s ∧ s.out.map (fun x => (x.1, x.2.code)) = l := by
  cases r with
  | none => cases h
  | some s => exact ⟨s, rfl, by simpa [codes] using h⟩

/-- C99_once, C99_answer_partial, C99_refused: commands answered with 200, 409, 400, 406 and 504, and one that waits for its connection. -/
example : codes (run exEnv init
    [.create udpReq .ok, exConfig, .create udpReq .ok, .create udpReq .ok, .create tcpReq .ok, .create (exReq .nonCanonical) .ok,
     .create (exReq (.canonical "unix" peer)) .ok, .create (exReq (.canonical "udp4" ⟨true, 5, 5⟩)) .ok, .create ethReq .systemError,
     .create ethReq .ok, .create udpReq .ok]) =
    some [(0, 406), (1, 200), (2, 409), (4, 400), (5, 406), (6, 504), (7, 504), (8, 200), (9, 409)] := by decide +kernel

/-- The face of the second command there. -/
example : (run exEnv init [exConfig, .create udpReq .ok]).bind (fun s => s.out[0]?.map (fun x => x.2.body)) =
    some (some { faceId := 256, localFields := some false, reliability := some true, congestion := some false, persistency := some .persistent,
                 interval := some 100, threshold := some 65536, mtu := some 1000 }) := by decide +kernel

/-- C99_ended, C99_no_abort_partial: a TCP face with local fields; Granted holds for the end of this connection attempt. -/
example : codes (run exEnv init [exConfig, .create tcpReq .ok, .create tcpReq .ok, .connected 0 (.ok self true), .connected 1 (.ok self true)]) =
    some [(0, 200), (1, 409)] := by decide +kernel

/-- C99_unique, C99_registered_partial: after a face is closed, its endpoint gets another, with another FaceId. -/
example : (run exEnv init [exConfig, .create udpReq .ok, .close 0, .settle 0, .create udpReq .ok]).map (fun s => s.faces.map (·.id)) =
    some [none, some 257] := by decide +kernel

/-- C99. What is missing for C99_no_abort_partial: if the configuration says that a loopback address is not local, a command that asks for
local fields on a TCP face to this address gets past all checks and stops NFD by a failed assertion. -/
theorem C99_abort : ∃ evs s, run exEnv init evs = some s ∧ step exEnv s (.connected 0 (.ok self false)) = none := by
  have h : codes (run exEnv init [exConfig, .create tcpReq .ok]) = some [] := by decide +kernel
  obtain ⟨s, h1, -⟩ := reach_of_codes h
  refine ⟨_, s, h1, ?_⟩
  have h2 : (run exEnv init [exConfig, .create tcpReq .ok]).bind (fun s => (step exEnv s (.connected 0 (.ok self false))).map (fun s => s.faces.length)) = none := by
    decide +kernel
  rw [h1] at h2
  simpa using h2

/-- C99. What is missing for C99_registered_partial and C99_answer_partial: the packet filter cannot be changed. The answer is 500, but the face is
there, not in the face table. The next command for this endpoint gets 200 and a face that is not as requested: reliability is off. -/
theorem C99_filter : ∃ evs s a, run exEnv init evs = some s ∧ s.out.map (fun x => x.2.code) = [500, 200] ∧
    s.faces.length = 1 ∧ s.reqs[1]?.map (fun p => p.req.params.reliability) = some (some true) ∧
    s.out[1]? = some a ∧ a.2.body.map (fun b => b.reliability) = some (some false) ∧
    (run exEnv init (evs.take 2)).map (fun s => s.faces.map (fun f => (f.st, f.id))) = some [(.up, none)] := by
  have h : (run exEnv init [exConfig, .create ethReq .filterError, .create ethReq2 .ok]).bind (fun s => (s.out[1]?).map (fun a =>
      (s.out.map (fun x => x.2.code), s.faces.length, s.reqs[1]?.map (fun p => p.req.params.reliability), a.2.body.map (fun b => b.reliability)))) =
      some ([500, 200], 1, some (some true), some (some false)) := by decide +kernel
  have h2 : (run exEnv init [exConfig, .create ethReq .filterError]).map (fun s => s.faces.map (fun f => (f.st, f.id))) = some [(.up, none)] := by
    decide +kernel
  simp only [Option.bind_eq_some_iff, Option.map_eq_some_iff, Prod.mk.injEq] at h
  obtain ⟨s, h1, a, h3, h4, h5, h6, h7⟩ := h
  exact ⟨[exConfig, .create ethReq .filterError, .create ethReq2 .ok], s, a, h1, h4, h5, by simpa using h6, h3, by simpa using h7, h2⟩

/-- C99. An answer 409 may describe a face that is being closed: it will be gone soon, and the user has got no face. -/
theorem C99_dying : ∃ evs s, run exEnv init evs = some s ∧ s.out.map (fun x => (x.2.code, x.2.face)) = [(200, some 0), (409, some 0)] ∧
    s.faces.map (fun f => f.st) = [.closing] := by
  have h : (run exEnv init [exConfig, .create udpReq .ok, .close 0, .create udpReq .ok]).map (fun s =>
      (s.out.map (fun x => (x.2.code, x.2.face)), s.faces.map (fun f => f.st))) = some ([(200, some 0), (409, some 0)], [.closing]) := by
    decide +kernel
  simp only [Option.map_eq_some_iff, Prod.mk.injEq] at h
  obtain ⟨s, h1, h2, h3⟩ := h
  exact ⟨_, s, h1, h2, h3⟩

/-- C99. An answer 200 to a command that asks for congestion marking on an Ethernet face: it is off (as the answer says). -/
theorem C99_ether_marking : ∃ evs s a, run exEnv init evs = some s ∧ s.reqs.map (fun p => p.req.params.congestion) = [some true] ∧
    s.out = [a] ∧ a.2.code = 200 ∧ a.2.body.map (fun b => b.congestion) = some (some false) := by
  have h : (run exEnv init [exConfig, .create ethReq .ok]).map (fun s =>
      (s.reqs.map (fun p => p.req.params.congestion), s.out.map (fun a => (a.2.code, a.2.body.map (fun b => b.congestion))))) =
      some ([some true], [(200, some (some false))]) := by decide +kernel
  simp only [Option.map_eq_some_iff, Prod.mk.injEq] at h
  obtain ⟨s, h1, h2, h3⟩ := h
  obtain ⟨a, ha⟩ : ∃ a, s.out = [a] := by
    match hs : s.out with
    | [] => rw [hs] at h3; cases h3
    | [a] => exact ⟨a, rfl⟩
    | a :: b :: l => rw [hs] at h3; simp at h3
  rw [ha] at h3
  simp only [List.map_cons, List.map_nil, List.cons.injEq, Prod.mk.injEq, and_true] at h3
  exact ⟨_, s, a, h1, h2, ha, h3.1, h3.2⟩

end Verif.Fc
