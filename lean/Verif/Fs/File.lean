import Verif.Fs.Props
import Verif.Cf.Props

/-! C104: the section `face_system` within a configuration file (C95, C97). -/
namespace Verif.Fs
open Verif.Cf (Node)

variable {Cert : Type} {e : Cf.Env Cert St} {d : Name}

theorem process_append (e : Cf.Env Cert St) (dry : Bool) : ∀ (a b : List (String × Node)) (s : Cf.St Cert St),
    Cf.process e (a ++ b) dry s = match Cf.process e a dry s with | none => none | some (s, false) => some (s, false) | some (s, true) => Cf.process e b dry s
  | [], b, s => rfl
  | x :: a, b, s => by
    rw [List.cons_append, Cf.process, Cf.process]
    cases h : Cf.section1 e x.1 x.2 dry s with
    | none => rfl
    | some r =>
      obtain ⟨s1, ok⟩ := r
      cases ok with
      | false => rfl
      | true => exact process_append e dry a b s1

theorem process_append_ok {dry : Bool} {a b : List (String × Node)} {s s2 : Cf.St Cert St} (h : Cf.process e (a ++ b) dry s = some (s2, true)) :
    ∃ s1, Cf.process e a dry s = some (s1, true) ∧ Cf.process e b dry s1 = some (s2, true) := by
  rw [process_append] at h
  cases h1 : Cf.process e a dry s with
  | none => rw [h1] at h; cases h
  | some r =>
    obtain ⟨s1, ok⟩ := r
    rw [h1] at h
    cases ok with
    | false => cases h
    | true => exact ⟨s1, rfl, h⟩

theorem append_process {dry : Bool} {a b : List (String × Node)} {s s1 : Cf.St Cert St} (h : Cf.process e a dry s = some (s1, true)) :
    Cf.process e (a ++ b) dry s = Cf.process e b dry s1 := by
  rw [process_append, h]

theorem face_section {n : Node} {dry : Bool} {b : List (String × Node)} {s : Cf.St Cert St} :
    Cf.process e (("face_system", n) :: b) dry s =
      if (e.faceSystem n dry s.face).2 = true then Cf.process e b dry { s with face := (e.faceSystem n dry s.face).1 }
      else some ({ s with face := (e.faceSystem n dry s.face).1 }, false) := by
  rw [Cf.process]
  have : Cf.section1 e "face_system" n dry s = some ({ s with face := (e.faceSystem n dry s.face).1 }, (e.faceSystem n dry s.face).2) := by
    unfold Cf.section1
    rw [if_neg (by decide), if_neg (by decide), if_neg (by decide), if_neg (by decide), if_pos rfl]
    rfl
  dsimp only
  rw [this]
  cases (e.faceSystem n dry s.face).2 <;> rfl

/-- A forwarder starts with a file that has one section `face_system`: if the file passes the dry run, tables can be configured as it says (see
`Cf.C97_check_partial`), the section has no rule for interfaces and sockets can be opened, then starting succeeds and the section is applied. -/
theorem C104_start_up {s : Cf.St Cert St} (hr : Cf.Running e d s) (fe : Env) (he : e.faceSystem = process fe) (hs : Reach s.face)
    {a b : List (String × Node)} {n : Node} (ha : ∀ y ∈ a, y.1 ≠ "face_system") (hb : ∀ y ∈ b, y.1 ≠ "face_system") {s' : Cf.St Cert St}
    (h : Cf.process e (a ++ ("face_system", n) :: b) true { s with configured := false } = some (s', true))
    (ht : ∀ x, ("tables", x) ∈ a ++ ("face_system", n) :: b → Cf.TablesApplicable e x)
    (hn : ∀ x, First n.kids "netdev_bound" x → x.kids = []) (hw : Works fe n s.face) :
    ∃ s2, Cf.startUp e (a ++ ("face_system", n) :: b) s = some (s2, true) ∧ Cf.Running e d s2 ∧ Done fe n s.face s2.face := by
  have h0 := h
  obtain ⟨s1, h1, h2⟩ := process_append_ok h
  obtain ⟨_, _, x0, x1, x2, -, x4, -, -, -, -, x9⟩ := Cf.C95_dry_run_partial e a { s with configured := false }
  rw [h1] at x0; cases x0
  have hf1 : s1.face = s.face := x9 ha
  rw [face_section] at h2
  by_cases hk : (e.faceSystem n true s1.face).2 = true
  · rw [if_pos hk] at h2
    obtain ⟨_, _, y0, y1, y2, -, y4, -, -, -, -, y9⟩ := Cf.C95_dry_run_partial e b { s1 with face := (e.faceSystem n true s1.face).1 }
    rw [h2] at y0; cases y0
    have hf2 : s'.face = (process fe n true s.face).1 := by rw [y9 hb, he, hf1]
    have hwf : WellFormed fe n := by rw [he, hf1] at hk; exact (C104_check fe n s.face).1 hk
    have hok : (process fe n false s.face).2 = true := C104_applicable_partial hs fe n hwf hn hw
    obtain ⟨p, q, r, hm⟩ := process_marked fe n s.face
    obtain ⟨hd1, hd2⟩ := (C104_dry_run_partial fe n s.face).2 p q r fe n
    have hr1 : Cf.Running e d s' := ⟨by rw [y1, x1]; exact hr.cs, by rw [y2, x2]; exact hr.tb⟩
    have hauth : s'.auth = s.auth := y4.trans x4
    -- the real run: the sections before
    obtain ⟨t1, c1, c2⟩ := Cf.process_check a hr1 (s := { s with configured := false }) (fun m => by rw [hauth]) h1
      (fun x hx => ht x (by simp [hx])) (fun x hx => absurd rfl (ha _ hx))
    obtain ⟨_, _, z0, z1, -, -, -, -, z9⟩ := Cf.process_frame (e := e) (d := d) a hr1
    rw [c1] at z0; cases z0
    have hf3 : t1.face = marked p q r s.face := by rw [z9 ha, hf2, hm]
    -- the section
    have hk2 : (e.faceSystem n false t1.face).2 = true := by rw [he, hf3]; exact hd1.2 hok
    have hf4 : (e.faceSystem n false t1.face).1 = (process fe n false s.face).1 := by rw [he, hf3]; exact hd2 hok
    have hr2 : Cf.Running e d { t1 with face := (e.faceSystem n false t1.face).1 } := ⟨z1.cs, z1.tb⟩
    -- the sections after
    obtain ⟨t2, c3, c4⟩ := Cf.process_check b hr2 (s := { s1 with face := (e.faceSystem n true s1.face).1 }) c2 h2
      (fun x hx => ht x (by simp [hx])) (fun x hx => absurd rfl (hb _ hx))
    obtain ⟨_, _, w0, w1, -, -, -, -, w9⟩ := Cf.process_frame (e := e) (d := d) b hr2
    rw [c3] at w0; cases w0
    have hreal : Cf.process e (a ++ ("face_system", n) :: b) false s' = some (t2, true) := by
      rw [append_process c1, face_section, if_pos hk2]; exact c3
    have hf5 : t2.face = (process fe n false s.face).1 := (w9 hb).trans hf4
    have hdone : Done fe n s.face t2.face := by rw [hf5]; exact (C104_applied hs fe n hok).1
    unfold Cf.startUp Cf.ensureConfigured
    rw [h0]; dsimp only; rw [hreal]; dsimp only
    by_cases hc : t2.configured = true
    · exact ⟨t2, by rw [if_pos hc]; rfl, w1, hdone⟩
    · obtain ⟨c1, c2, f1, f2, f3, -⟩ := Cf.cs_config w1.cs Cf.defaultCsMaxPackets none
      cases f2
      exact ⟨{ t2 with cs := c1, fw := { t2.fw with unsolicited := Cf.defaultUnsolicited }, configured := true }, by rw [if_neg hc, f1]; rfl,
        ⟨f3, w1.tb⟩, hdone⟩
  · rw [if_neg hk] at h2; cases h2

/-- A mistake in the section that can be seen stops the start before anything has been changed. -/
theorem C104_start_up_refused {s : Cf.St Cert St} (fe : Env) (he : e.faceSystem = process fe) {file : List (String × Node)} {n : Node}
    (hn : ("face_system", n) ∈ file) (hw : ¬ WellFormed fe n) :
    ∃ s', Cf.startUp e file s = some (s', false) ∧ s'.cs = s.cs ∧ s'.tb = s.tb ∧ s'.fw = s.fw ∧ s'.auth = s.auth := by
  have hx : ∀ t : Cf.St Cert St, ∃ t', Cf.section1 e "face_system" n true t = some (t', false) := by
    intro t
    have hk : (process fe n true t.face).2 = false := by
      cases h : (process fe n true t.face).2 with
      | false => rfl
      | true => exact absurd ((C104_check fe n t.face).1 h) hw
    refine ⟨{ t with face := (process fe n true t.face).1 }, ?_⟩
    unfold Cf.section1
    rw [if_neg (by decide), if_neg (by decide), if_neg (by decide), if_neg (by decide), if_pos rfl]
    unfold Cf.faceSection
    rw [he]
    dsimp only
    rw [hk]
  obtain ⟨s1, h1⟩ := Cf.process_dry_fails e (x := ("face_system", n)) hx file { s with configured := false } hn
  obtain ⟨_, _, a0, a1, a2, a3, a4, -⟩ := Cf.C95_dry_run_partial e file { s with configured := false }
  rw [h1] at a0; cases a0
  refine ⟨s1, ?_, a1, a2, a3, a4⟩
  unfold Cf.startUp
  rw [h1]

/-! ### The hypotheses can be met -/

def exCf : Cf.Env Nat St :=
  { tb := Tb.exEnv, num := Cf.exNum, name := Cf.exName, load := fun _ => none, user := fun _ => .missing, group := fun _ => .missing, userSize := 16,
    groupSize := 16, faceSystem := process exEnv }

def exCfSt : Option (Cf.St Nat St) :=
  (Tb.init Tb.exEnv Tb.st1).map (fun t =>
    { cs := Cs.init 10, tb := t, fw := {}, auth := fun _ => none, priv := Priv.start 0 0 [], face := init, configured := false })

example : ∃ s s', exCfSt = some s ∧ Cf.Running exCf Tb.st1 s ∧ Reach s.face ∧
    Cf.process exCf ([("log", leaf "")] ++ ("face_system", exNode) :: [("rib", leaf "")]) true { s with configured := false } = some (s', true) ∧
    Works exEnv exNode s.face := by
  cases h : exCfSt with
  | none => exact absurd h (by decide +kernel)
  | some s =>
    have hs : Cf.Running exCf Tb.st1 s ∧ s.face = init := by
      unfold exCfSt at h
      rw [Option.map_eq_some_iff] at h
      obtain ⟨t, h1, rfl⟩ := h
      exact ⟨⟨⟨10, [], by simp, rfl⟩, ⟨t, [], h1, rfl⟩⟩, rfl⟩
    refine ⟨s, { s with configured := false, face := (process exEnv exNode true s.face).1 }, rfl, hs.1, by rw [hs.2]; exact .init, ?_, ?_⟩
    · have hk : (process exEnv exNode true s.face).2 = true := (C104_check _ _ _).2 ((C104_check exEnv exNode init).1 (by decide +kernel))
      rw [append_process (s1 := { s with configured := false }) rfl, face_section]
      exact (if_pos hk).trans rfl
    · refine ⟨fun _ => rfl, fun _ => rfl, fun _ => rfl, fun _ => rfl, fun _ p _ _ => ⟨p, rfl⟩, fun k f hf => ?_⟩
      rw [hs.2] at hf
      simp [init, Mc.init] at hf

end Verif.Fs
