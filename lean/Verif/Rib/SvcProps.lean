import Verif.Fs.Props
import Verif.Rib.SvcLemmas

/-! C124: the section `rib` of the configuration file, and how the RIB manager reaches the forwarder. -/
namespace Verif.Svc
open Verif.Cf (Node)
open Verif.Fs (Lacks First Last Says YesNo leaf sec)

variable {V C : Type}

/-! ### An example -/

/-- Rules are the name of a signer, and accept its commands; there are no rules without one. -/
def exEnv : Env String String :=
  { load := fun n => if n.value = "" then none else some n.value, accepts := fun v c => v == c, num := fun x => if x = "30" then some 30 else none }

def exFile (rib : List (String × Node)) : List (String × Node) := [("general", sec []), ("face_system", Fs.exNode), ("rib", sec rib)]

/-! ### Starting -/

/-- The RIB manager starts exactly if the file says how to reach the forwarder and no section `rib` has a mistake. -/
theorem C124_starts (e : Env V C) (file : List (String × Node)) :
    (start e file).isSome = true ↔ (∃ t, TransportSays file t) ∧ ∀ n, ("rib", n) ∈ file → WellFormed e n := by
  rw [start_iff, Option.isSome_iff_exists]
  constructor
  · rintro ⟨⟨t, h1⟩, h2⟩
    exact ⟨⟨t, transport_iff.mp h1⟩, fun n hn => h2 _ hn rfl⟩
  · rintro ⟨⟨t, h1⟩, h2⟩
    refine ⟨⟨t, transport_iff.mpr h1⟩, ?_⟩
    rintro ⟨k, n⟩ hx rfl
    exact h2 n hx

example : (start exEnv (exFile [("localhost_security", leaf "A"), ("localhop_security", leaf "B"), ("readvertise_nlsr", leaf "yes")])).isSome = true := by decide +kernel
example : start exEnv (exFile [("localhost_security", leaf "")]) = none ∧ start exEnv (exFile [("readvertise_nlsr", leaf "maybe")]) = none ∧
    start exEnv (exFile [("other", leaf "")]) = none ∧ start exEnv (exFile [("localhop_security", leaf "A"), ("auto_prefix_propagate", sec [])]) = none ∧
    start exEnv [("rib", sec [])] = none := ⟨rfl, rfl, rfl, rfl, rfl⟩

/-- What passes the check is applied without an exception, from any state: there is no section that is applied half. -/
theorem C124_no_half (e : Env V C) (file : List (String × Node)) (s : St V) (h : (process e true file s).2 = true) :
    (process e true file s).1 = s ∧ (process e false file s).2 = true :=
  ⟨(process_dry e file s).1, process_real e file s ((process_dry e file s).2.mp h)⟩

example : (process exEnv true (exFile [("localhost_security", leaf "A"), ("auto_prefix_propagate", sec [])]) {}).2 = true := by decide +kernel

/-- It connects where the file says. -/
theorem C124_transport {e : Env V C} {file : List (String × Node)} {r : Running V} (h : start e file = some r) : TransportSays file r.transport := by
  refine transport_iff.mp ?_
  unfold start at h
  cases ht : transport (.mk "" file) with
  | none => rw [ht] at h; cases h
  | some t =>
    rw [ht] at h
    dsimp only at h
    split at h
    · cases h
    · split at h
      · cases h
      · injection h with h
        subst h
        rfl

example : (start exEnv (exFile [])).map (·.transport) = some (.unix "/run/nfd.sock") := by decide +kernel
example : (start exEnv [("face_system", sec [("tcp", sec [("port", leaf "7000")])])]).map (·.transport) = some (.tcp "localhost" "7000") := by decide +kernel
example : (start exEnv [("face_system", sec [("tcp", sec [("listen", leaf "no")])])]).isSome = false := by decide +kernel

/-! ### What it does -/

/-- With one section `rib`, everything is as the section says: whose commands are carried out, under which prefix, whose prefix announcements are accepted,
and whether and how prefixes are propagated. -/
theorem C124_applied {e : Env V C} {a b : List (String × Node)} {n : Node} {r : Running V} (ha : Lacks a "rib") (hb : Lacks b "rib")
    (h : start e (a ++ ("rib", n) :: b) = some r) : Done e n r := start_done ha hb h

example : ∃ r, start exEnv (exFile [("localhost_security", leaf "A"), ("localhop_security", leaf "B"), ("readvertise_nlsr", leaf "yes")]) = some r ∧
    authorized exEnv r .localhost "A" = true ∧ authorized exEnv r .localhost "B" = false ∧ authorized exEnv r .localhop "B" = true ∧
    authorized exEnv r .localhop "A" = false ∧ r.st.nlsr = true ∧ r.st.propagate = none := ⟨_, rfl, by decide +kernel⟩
example : ∃ r, start exEnv (exFile [("auto_prefix_propagate", sec [("cost", leaf "30")])]) = some r ∧ r.st.propagate = some ⟨30, 10000, 25⟩ := ⟨_, rfl, rfl⟩

/-- Without a section `rib` no command is carried out, and nothing is propagated. -/
theorem C124_closed {e : Env V C} {file : List (String × Node)} {r : Running V} (hl : Lacks file "rib") (h : start e file = some r) :
    (∀ top c, authorized e r top c = false) ∧ r.st.pa.isSome = false ∧ r.st.propagate = none ∧ r.st.nlsr = false := by
  have hp : ∀ (l : List (String × Node)) (d : Bool) (s : St V), Lacks l "rib" → process e d l s = (s, true) := by
    intro l d s
    induction l with
    | nil => intro _; rfl
    | cons x l ih =>
      intro h
      obtain ⟨h1, h2⟩ := lacks_cons.mp h
      unfold process
      rw [if_neg h1]
      exact ih h2
  unfold start at h
  cases ht : transport (.mk "" file) with
  | none => rw [ht] at h; cases h
  | some t =>
    rw [ht, hp file true {} hl] at h
    dsimp only at h
    rw [hp file false {} hl] at h
    injection h with h
    subst h
    exact ⟨fun top c => by cases top <;> rfl, rfl, rfl, rfl⟩

example : (start exEnv [("face_system", Fs.exNode)]).isSome = true ∧ Lacks [("face_system", Fs.exNode)] "rib" := ⟨by decide +kernel, by simp [Lacks]⟩

/-- Commands from the local network are never taken while prefixes are propagated, if there is one section `rib`. -/
theorem C124_exclusive_partial {e : Env V C} {a b : List (String × Node)} {n : Node} {r : Running V} (ha : Lacks a "rib") (hb : Lacks b "rib")
    (h : start e (a ++ ("rib", n) :: b) = some r) : (∀ c, authorized e r .localhop c = false) ∨ r.st.propagate = none := by
  have hd := start_done ha hb h
  have hw : WellFormed e n := ((C124_starts e _).mp (by rw [h]; rfl)).2 n (by simp)
  rcases hw.excl with hx | hx
  · rcases hd.localhop with ⟨-, h1⟩ | ⟨x, v, h1, -⟩
    · exact .inl h1
    · exact absurd hx (last_not_lacks h1)
  · rcases hd.propagate with ⟨-, h1⟩ | ⟨x, p, h1, -⟩
    · exact .inr h1
    · exact absurd hx (first_lacks h1)

/-- With two sections `rib` they are: each section is checked alone. -/
theorem C124_both : ∃ r, start exEnv (exFile [("localhop_security", leaf "A")] ++ [("rib", sec [("auto_prefix_propagate", sec [])])]) = some r ∧
    authorized exEnv r .localhop "A" = true ∧ r.st.propagate.isSome = true := ⟨_, rfl, by decide +kernel⟩

/-- A cost that cannot be read is not a mistake: the default is used. -/
theorem C124_unread : ∃ r, start exEnv (exFile [("auto_prefix_propagate", sec [("cost", leaf "thirty")])]) = some r ∧ r.st.propagate = some ⟨15, 10000, 25⟩ :=
  ⟨_, rfl, rfl⟩

/-! ### Reaching the forwarder -/

/-- If the forwarder has applied the section `face_system`, and options in it are not repeated, the RIB manager connects where the forwarder accepts peers. -/
theorem C124_reaches_partial {fe : Fs.Env} {s : Fs.St} (hs : Fs.Reach s) {n : Node} (hok : (Fs.process fe n false s).2 = true)
    {file : List (String × Node)} (hf : First file "face_system" n) (hu : ∀ x, First n.kids "unix" x → Once x.kids "path")
    (ht : ∀ x, First n.kids "tcp" x → Once x.kids "port" ∧ Once x.kids "listen")
    {e : Env V C} {r : Running V} (h : start e file = some r) : Reachable fe (Fs.process fe n false s).1 r.transport := by
  obtain ⟨hd, hw, -⟩ := Fs.C104_applied hs fe n hok
  generalize r.transport = t, C124_transport h = htr
  cases htr with
  | unix f x p h1 h2 h3 =>
    rw [first_unique h1 hf] at h2
    obtain ⟨p', q, hp, hq, hc⟩ := hd.unix x h2
    have : p = p' := by
      rcases h3 with ⟨h3, rfl⟩ | ⟨y, h3, rfl⟩
      · rcases hp with ⟨-, hp⟩ | ⟨z, hz, -⟩
        · exact hp.symm
        · exact absurd h3 (last_not_lacks hz)
      · rcases hp with ⟨hp, -⟩ | ⟨z, hz, hp⟩
        · exact absurd hp (first_lacks h3)
        · rw [first_once (hu x h2) h3 hz, hp]
    subst this
    exact ⟨q, hq, hc.accepts rfl q rfl⟩
  | tcp f x p h1 h2 h3 h4 h5 =>
    rw [first_unique h1 hf] at h3
    obtain ⟨-, listen, port, v4, v6, ⟨p1, p2, p3, p4⟩, hc⟩ := hd.tcp x h3
    have hl : listen = true := by
      rcases p1 with ⟨-, p1⟩ | ⟨z, hz, p1⟩
      · exact p1
      · rcases h4 with h4 | ⟨y, h4, hy⟩
        · exact absurd h4 (last_not_lacks hz)
        · rw [← first_once (ht x h3).2 h4 hz] at p1
          rcases p1 with ⟨-, p1⟩ | ⟨p1, -⟩
          · exact p1
          · rw [hy] at p1; exact absurd p1 (by decide)
    have hk : ∃ v6', Fs.Keys port v4 v6 (v6', port) := by
      have hn := (hw.tcp x h3).2
      cases v4 with
      | true => exact ⟨false, .inl ⟨rfl, rfl⟩⟩
      | false =>
        cases v6 with
        | true => exact ⟨true, .inr ⟨rfl, rfl⟩⟩
        | false => exact absurd ⟨p3, p4⟩ hn
    obtain ⟨v6', hk⟩ := hk
    obtain ⟨c, hc1, hc2, hc3⟩ := hc.accepts hl _ hk
    refine ⟨rfl, port, ?_, c, hc1, ⟨v6', hc2⟩, hc3⟩
    rcases h5 with ⟨h5, rfl⟩ | ⟨y, h5, rfl⟩
    · rcases p2 with ⟨-, p2⟩ | ⟨z, hz, -⟩
      · exact .inr ⟨rfl, p2⟩
      · exact absurd h5 (last_not_lacks hz)
    · rcases p2 with ⟨p2, -⟩ | ⟨z, hz, p2⟩
      · exact absurd p2 (first_lacks h5)
      · rw [← first_once (ht x h3).1 h5 hz] at p2
        exact .inl p2

example : (Fs.process Fs.exEnv Fs.exNode false Fs.init).2 = true ∧ First (exFile []) "face_system" Fs.exNode ∧ (start exEnv (exFile [])).isSome = true :=
  ⟨by decide +kernel, ⟨[("general", sec [])], [("rib", sec [])], rfl, by simp⟩, by decide +kernel⟩

/-- A repeated path: the forwarder takes the last one, the RIB manager the first, where nobody listens. -/
def exTwice : Node := sec [("unix", sec [("path", leaf "/a"), ("path", leaf "/b")])]

theorem C124_repeated : (Fs.process Fs.exEnv exTwice false Fs.init).2 = true ∧
    ∃ r, start exEnv [("face_system", exTwice), ("rib", sec [])] = some r ∧ ¬ Reachable Fs.exEnv (Fs.process Fs.exEnv exTwice false Fs.init).1 r.transport := by
  have hc : (Fs.process Fs.exEnv exTwice false Fs.init).1.unix.chans.map (·.key) = ["/b"] := by decide +kernel
  refine ⟨by decide +kernel, ⟨.unix "/a", {}, false⟩, rfl, ?_⟩
  rintro ⟨q, h1, c, h2, h3, -⟩
  have h4 : c.key ∈ (Fs.process Fs.exEnv exTwice false Fs.init).1.unix.chans.map (·.key) := List.mem_map_of_mem h2
  rw [hc, h3] at h4
  have h5 : q = "/a" := by injection h1 with h1; exact h1.symm
  rw [h5] at h4
  revert h4
  decide

end Verif.Svc
