import Verif.Strat.Lemmas

/-
What the actions of strategies do: sequences of Interests and of Nacks.
-/
namespace Verif.Strat

open Fw
open Tb (FaceId Time FwInterest InRec OutRec PitEntry NextHop)

variable {env : Env} {st : Strategy} {s s' : St}

theorem pending_iff {now : Time} {e : PitEntry} : hasPendingOutRecords now e = true ↔ PendingUpstream now e.outs := by
  simp [hasPendingOutRecords, PendingUpstream]

theorem outRecords_unique (hi : Inv s) {i : FwInterest} {a b : List OutRec} (h1 : OutRecords s i a) (h2 : OutRecords s i b) : a = b := by
  rcases h1 with ⟨e, he, hk, rfl⟩ | ⟨hn, rfl⟩
  · rcases h2 with ⟨e', he', hk', rfl⟩ | ⟨hn', rfl⟩
    · rw [eq_of_key hi.keys he he' (hk.trans hk'.symm)]
    · exact absurd hk (hn' e he)
  · rcases h2 with ⟨e', he', hk', rfl⟩ | ⟨-, rfl⟩
    · exact absurd hk' (hn e' he')
    · rfl

theorem outRecords_nodup (hi : Inv s) {i : FwInterest} {a : List OutRec} (h : OutRecords s i a) : (a.map (·.face)).Nodup := by
  rcases h with ⟨e, he, -, rfl⟩ | ⟨-, rfl⟩
  · exact (hi.ents e he).recs.2
  · exact List.nodup_nil

/-- Sending an Interest. -/
structure Sent (r r' : St) (u : Nat) (new : List Pkt) : Prop where
  sent : r'.sent = r.sent ++ new
  faces : r'.faces = r.faces
  now : r'.now = r.now
  sched : r'.sched = r.sched
  ents : ∀ e, r.find u = some e → ∃ e', r'.find u = some e' ∧ e'.ins = e.ins ∧ e'.interest = e.interest

theorem Sent.refl (r : St) (u : Nat) : Sent r r u [] :=
  ⟨(List.append_nil _).symm, rfl, rfl, rfl, fun e h => ⟨e, h, rfl, rfl⟩⟩

theorem Sent.trans {a b c : St} {u : Nat} {x y : List Pkt} (h1 : Sent a b u x) (h2 : Sent b c u y) : Sent a c u (x ++ y) :=
  ⟨by rw [h2.sent, h1.sent, List.append_assoc], h2.faces.trans h1.faces, h2.now.trans h1.now, h2.sched.trans h1.sched, fun e he => by
    obtain ⟨e1, h3, h4, h5⟩ := h1.ents e he
    obtain ⟨e2, h6, h7, h8⟩ := h2.ents e1 h3
    exact ⟨e2, h6, h7.trans h4, h8.trans h5⟩⟩

/-- The packet of `sendInterest`. -/
def wire (faces : FaceId → Option FaceInfo) (j : FwInterest) (g : FaceId) : List Pkt :=
  match faces g with
  | none => []
  | some gi => if j.hopLimit = some 0 ∧ gi.scope = .nonLocal then [] else [.interest g j]

theorem sent_interest {r : St} {u : Nat} {e : Ent} (he : r.find u = some e) (j : FwInterest) (g : FaceId) :
    Sent r (onOutgoingInterest r u j g) u (wire r.faces j g) := by
  unfold onOutgoingInterest wire
  cases hg : r.faces g with
  | none => exact Sent.refl r u
  | some gi =>
    simp only [he]
    split
    · exact Sent.refl r u
    · refine ⟨rfl, rfl, rfl, rfl, ?_⟩
      intro e' he'
      have : e' = e := by rw [he] at he'; exact (Option.some.inj he').symm
      subst this
      refine ⟨{ e' with toPitEntry := Tb.insertOrUpdateOut e'.toPitEntry g j r.now }, ?_, rfl, rfl⟩
      show (r.mod u _).find u = _
      rw [mod_find_self (by exact fun _ => rfl), he]; rfl

theorem sent_interests {u : Nat} (j : FwInterest) : ∀ (gs : List FaceId) (r r' : St) (e : Ent), r.find u = some e →
    acts r (gs.map (fun g => .sendInterest u j g)) = some r' → Sent r r' u (gs.flatMap (wire r.faces j))
  | [], r, r', e, he, h => by cases h; exact Sent.refl r u
  | g :: gs, r, r', e, he, h => by
    have h1 := sent_interest he j g
    obtain ⟨e', he', -, -⟩ := h1.ents e he
    have h2 := sent_interests j gs _ r' e' he' h
    rw [h1.faces] at h2
    exact h1.trans h2

theorem wire_eq {f g : FaceId} {n : Name} {j : FwInterest} (h : Eligible s n f g) :
    (OutOfHops s j g → wire s.faces j g = []) ∧ (¬OutOfHops s j g → wire s.faces j g = [.interest g j]) := by
  obtain ⟨fi, gi, -, hg, -, -⟩ := h
  unfold wire OutOfHops
  rw [hg]
  constructor
  · rintro ⟨h1, gi', h2, h3⟩
    obtain rfl := Option.some.inj h2
    exact if_pos ⟨h1, h3⟩
  · intro h1
    exact if_neg (fun hc => h1 ⟨hc.1, gi, rfl, hc.2⟩)

/-- One Interest to an eligible face. -/
theorem sendsTo {r : St} {i j : FwInterest} {f g : FaceId} {u : Nat} {e : Ent} (hc : Called st s s' i f r u e j)
    (hst : st r (.afterReceiveInterest j f u) = [.sendInterest u j g]) (hg : Eligible s i.name f g) : SendsTo s s' i g := by
  have h := hc.calls
  rw [hst] at h
  have h1 := sent_interests j [g] { r with calls := r.calls ++ [.afterReceiveInterest j f u] } s' e hc.find h
  obtain ⟨w1, w2⟩ := wire_eq (j := j) hg
  refine ⟨j, hc.carries, ?_, ?_⟩
  · intro ho
    unfold Emits
    rw [h1.sent]
    show r.sent ++ List.flatMap (wire r.faces j) [g] = _
    rw [hc.sent, hc.faces, List.flatMap_cons, w1 ho]; rfl
  · intro ho
    unfold Emits
    rw [h1.sent]
    show r.sent ++ List.flatMap (wire r.faces j) [g] = _
    rw [hc.sent, hc.faces, List.flatMap_cons, w2 ho]; rfl

theorem emits_none {r : St} {i j : FwInterest} {f : FaceId} {u : Nat} {e : Ent} (hc : Called st s s' i f r u e j)
    (hst : st r (.afterReceiveInterest j f u) = []) : Emits s s' [] := by
  have h := hc.calls
  rw [hst] at h
  cases h
  show r.sent = _
  rw [hc.sent, List.append_nil]

/-! ### Nacks -/

theorem outgoing_nack {r : St} {u : Nat} {e : Ent} {q : InRec} {gi : FaceInfo} (he : r.find u = some e) (hg : r.faces q.face = some gi)
    (hq : e.ins.find? (·.face == q.face) = some q) (k : Nat) :
    onOutgoingNack r u k q.face = (if gi.link = .p2p then
      { r.mod u (fun e => { e with toPitEntry := Tb.deleteIn e.toPitEntry q.face }) with
        sent := r.sent ++ [.nack q.face q.interest k]
        ctr := { r.ctr with nOutNacks := r.ctr.nOutNacks + 1 } } else r) := by
  unfold onOutgoingNack
  rw [hg]
  simp only [he, Option.bind_some, hq]
  by_cases h : gi.link = .p2p
  · rw [if_neg (by simp [h]), if_pos h]
  · rw [if_pos h, if_neg h]

/-- The downstreams that can be sent a Nack. -/
def nackable (faces : FaceId → Option FaceInfo) (q : InRec) : Bool := (faces q.face).any (fun fi => decide (fi.link = .p2p))

theorem find?_eraseP_other {a b : FaceId} (h : a ≠ b) : ∀ l : List InRec,
    (l.eraseP (·.face == b)).find? (·.face == a) = l.find? (·.face == a)
  | [] => rfl
  | x :: l => by
    by_cases hx : x.face = b
    · rw [List.eraseP_cons_of_pos (by simpa using hx), List.find?_cons_of_neg (by simpa [hx] using fun hc => h hc.symm)]
    · rw [List.eraseP_cons_of_neg (by simpa using hx)]
      simp only [List.find?_cons]
      split
      · rfl
      · exact find?_eraseP_other h l

theorem acts_nacks {u k : Nat} : ∀ (ins : List InRec) (r r' : St) (e : Ent), r.find u = some e → (ins.map (·.face)).Nodup →
    (∀ q ∈ ins, (r.faces q.face).isSome) →
    (∀ q ∈ ins, e.ins.find? (·.face == q.face) = some q) → acts r (ins.map (fun q => .sendNack u k q.face)) = some r' →
    r'.sent = r.sent ++ (ins.filter (nackable r.faces)).map (fun q => .nack q.face q.interest k)
  | [], r, r', e, he, _, _, _, h => by cases h; simp
  | q :: ins, r, r', e, he, hn, hf, hq, h => by
    obtain ⟨gi, hg⟩ := Option.isSome_iff_exists.1 (hf q List.mem_cons_self)
    have h0 : acts (onOutgoingNack r u k q.face) (ins.map (fun q => .sendNack u k q.face)) = some r' := h
    rw [outgoing_nack he hg (hq q List.mem_cons_self)] at h0
    have hn2 : q.face ∉ ins.map (·.face) ∧ (ins.map (·.face)).Nodup := List.nodup_cons.1 hn
    have hb : nackable r.faces q = decide (gi.link = .p2p) := by unfold nackable; rw [hg]; rfl
    by_cases hp : gi.link = .p2p
    · rw [if_pos hp] at h0
      have ih := fun ha hb => acts_nacks ins _ r' { e with toPitEntry := Tb.deleteIn e.toPitEntry q.face } ha
        hn2.2 (by exact fun x hx => hf x (List.mem_cons_of_mem _ hx)) hb h0
      have ih := ih ?_ ?_
      · rw [ih]
        show r.sent ++ [_] ++ (ins.filter (nackable r.faces)).map _ = _
        rw [List.filter_cons_of_pos (by rw [hb]; simpa using hp), List.map_cons, List.append_assoc]
        rfl
      · show (r.mod u _).find u = _
        rw [mod_find_self (by exact fun _ => rfl), he]; rfl
      · intro x hx
        have hne : x.face ≠ q.face := fun hc => hn2.1 (hc ▸ List.mem_map_of_mem hx)
        have := hq x (List.mem_cons_of_mem _ hx)
        show (Tb.deleteIn e.toPitEntry q.face).ins.find? _ = _
        rw [← this]
        exact find?_eraseP_other hne _
    · rw [if_neg hp] at h0
      have ih := acts_nacks ins r r' e he hn2.2 (fun x hx => hf x (List.mem_cons_of_mem _ hx))
        (fun x hx => hq x (List.mem_cons_of_mem _ hx)) h0
      rw [ih, List.filter_cons_of_neg (by rw [hb]; simpa using hp)]

end Verif.Strat
