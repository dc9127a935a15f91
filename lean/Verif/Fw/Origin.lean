import Verif.Fw.Cases

/-
Where in-records and Nacks come from.
-/
namespace Verif.Fw

open Tb (FaceId Time FwInterest InRec OutRec PitEntry NextHop)

variable {env : Env} {Q : (FaceId → Option FaceInfo) → Action → Prop} {R : FwInterest → FaceId → Prop}

/-- An in-record made for an Interest with `R`. -/
def NewIn (R : FwInterest → FaceId → Prop) (r : InRec) : Prop :=
  ∃ i c, R i r.face ∧ r.interest = addHop c i ∧ r.nonce = i.nonce

/-- Every in-record of `b` is one of `a`'s, in the same entry, or satisfies `P`. -/
def InsFrom (P : InRec → Prop) (a b : St) : Prop :=
  ∀ e' ∈ b.pit, ∀ r ∈ e'.ins, (∃ e ∈ a.pit, e.uid = e'.uid ∧ r ∈ e.ins) ∨ P r

theorem InsFrom.of_pit {P : InRec → Prop} {a b : St} (h : b.pit = a.pit) : InsFrom P a b := by
  intro e he r hr; rw [h] at he; exact Or.inl ⟨e, he, rfl, hr⟩

theorem InsFrom.trans {P : InRec → Prop} {a b c : St} (h : InsFrom P a b) (h' : InsFrom P b c) : InsFrom P a c := by
  intro e he r hr
  rcases h' e he r hr with ⟨e1, h1, h2, h3⟩ | hp
  · rcases h e1 h1 r h3 with ⟨e0, g1, g2, g3⟩ | hp
    · exact Or.inl ⟨e0, g1, g2.trans h2, g3⟩
    · exact Or.inr hp
  · exact Or.inr hp

theorem insFrom_mod {P : InRec → Prop} {s s' : St} {u : Nat} {f : Ent → Ent} (hp : s'.pit = (s.mod u f).pit)
    (hu : ∀ e, (f e).uid = e.uid) (hs : ∀ e, ∀ r ∈ (f e).ins, r ∈ e.ins ∨ P r) : InsFrom P s s' := by
  intro e he r hr
  rw [hp] at he
  obtain ⟨e0, h0, rfl⟩ := mem_mod.1 he
  by_cases hc : e0.uid = u
  · rw [if_pos hc] at hr ⊢
    rcases hs e0 r hr with h | h
    · exact Or.inl ⟨e0, h0, (hu e0).symm, h⟩
    · exact Or.inr h
  · rw [if_neg hc] at hr ⊢
    exact Or.inl ⟨e0, h0, rfl, hr⟩

theorem insFrom_timer {P : InRec → Prop} (s : St) (u ms : Nat) : InsFrom P s (setExpiryTimer s u ms) := by
  unfold setExpiryTimer
  split
  · exact .of_pit rfl
  · exact insFrom_mod (u := u) (f := fun e => { e with timer := some s.nextTimer }) rfl (fun _ => rfl) (fun _ _ h => Or.inl h)

theorem insFrom_insert {P : InRec → Prop} (s : St) (i : FwInterest) : InsFrom P s (pitInsert s i).1 := by
  unfold pitInsert
  split
  · exact .of_pit rfl
  · intro e he r hr
    rcases List.mem_append.1 he with he | he
    · exact Or.inl ⟨e, he, rfl, hr⟩
    · rw [List.mem_singleton] at he; subst he; simp at hr

theorem insFrom_nack {P : InRec → Prop} (s : St) (u r : Nat) (g : FaceId) : InsFrom P s (onOutgoingNack s u r g) := by
  rcases outgoingNack_cases s u r g with he | ⟨fi, e, rec, -, -, -, -, -, hp, -⟩
  · rw [he]; exact .of_pit rfl
  · exact insFrom_mod hp (fun _ => rfl) (fun _ _ h => Or.inl (mem_deleteIn h))

theorem insFrom_record {s : St} {i : FwInterest} {f : FaceId} {u : Nat} {b : Bool} (hr : R i f) :
    InsFrom (NewIn R) s (recordInterest s i f u b) := by
  unfold recordInterest
  refine InsFrom.trans ?_ (insFrom_timer _ _ _)
  refine insFrom_mod rfl (fun _ => rfl) ?_
  intro e r h
  rcases mem_insertIn h with ⟨h, -⟩ | ⟨h1, h2, -, -, h3⟩
  · exact Or.inl h
  · exact Or.inr ⟨i, s.cfg, h1 ▸ hr, h3, by rw [h2, addHop_nonce]⟩

theorem Prim.insFrom {a b : St} (p : Prim env Q R a b) (hi : Inv a) : InsFrom (NewIn R) a b := by
  cases p with
  | aux => exact .of_pit rfl
  | interest u i g =>
    unfold onOutgoingInterest
    split
    · split
      · exact .of_pit rfl
      · exact insFrom_mod (u := u) (f := fun e => { e with toPitEntry := Tb.insertOrUpdateOut e.toPitEntry g i a.now }) rfl
          (fun _ => rfl) (fun _ _ h => Or.inl h)
    · exact .of_pit rfl
  | data d g => exact .of_pit (pit_outgoingData a d g)
  | nack u r g => exact insFrom_nack _ _ _ _
  | nackPkt i r g => unfold sendNackPacket; split <;> exact .of_pit rfl
  | timer u ms => exact insFrom_timer _ _ _
  | record i f fi hr hf hs hd => exact (insFrom_insert a i).trans (insFrom_record hr)
  | hit i d =>
    exact (insFrom_insert a i).trans ((insFrom_mod (u := (pitInsert a i).2.1.uid)
      (f := fun e => { e with satisfied := true, freshness := d.freshness }) rfl (fun _ => rfl) (fun _ _ h => Or.inl h)).trans
      (insFrom_timer _ _ _))
  | satisfy u fr => exact insFrom_mod rfl (fun _ => rfl) (fun _ _ h => Or.inl h)
  | delIn u g => exact insFrom_mod rfl (fun _ => rfl) (fun _ _ h => Or.inl (mem_deleteIn h))
  | delOut u g => exact insFrom_mod rfl (fun _ => rfl) (fun _ _ h => Or.inl h)
  | clearOut u g => exact insFrom_mod rfl (fun _ => rfl) (fun e r h => absurd h (by simp [Tb.deleteOut, Tb.clearIns]))
  | setNack u f n k => exact insFrom_mod rfl (fun _ => rfl) (fun _ _ h => Or.inl h)
  | finalize _ t ht hd h =>
    obtain ⟨e, s2, he, hu, hfin, hpit, -⟩ := finalize_spec (env := env) hi ht
    rw [hfin] at h
    cases h
    intro e he r hr
    rw [hpit, List.mem_filter] at he
    exact Or.inl ⟨e, he.1, rfl, hr⟩

theorem Path.insFrom {a b : St} (p : Path env Q R a b) (hi : Inv a) : InsFrom (NewIn R) a b := by
  induction p with
  | refl => exact .of_pit rfl
  | head p _ ih => exact (p.insFrom hi).trans (ih (p.inv hi))

theorem step_insFrom {st : Strategy} {s s' : St} {ev : Event} (hi : Inv s) (h : step env st s ev = some s') :
    InsFrom (NewIn ev.recv) s s' := by
  cases he : ev.isFrame with
  | false => exact (step_path (any_respects st) he h).insFrom hi
  | true =>
    cases ev with
    | tick dt => cases h; exact .of_pit rfl
    | addFace f fi =>
      simp only [step] at h
      cases h
      split <;> exact .of_pit rfl
    | removeFace f =>
      cases h
      intro e he r hr
      simp only [removeFace, List.mem_map] at he
      obtain ⟨e0, h0, rfl⟩ := he
      exact Or.inl ⟨e0, h0, rfl, mem_deleteIn (f := f) hr⟩
    | _ => simp [Event.isFrame] at he

/-! ### Nacks -/

/-- Every Nack sent between `a` and `b` is the strategy's own, or answers an Interest that is pending in `a` or was recorded since. -/
def NacksFrom (Q : (FaceId → Option FaceInfo) → Action → Prop) (P : InRec → Prop) (a b : St) : Prop :=
  ∃ new, b.sent = a.sent ++ new ∧ ∀ g i k, .nack g i k ∈ new →
    Q a.faces (.sendNackPacket i k g) ∨
    (∃ fi, a.faces g = some fi ∧ fi.link = .p2p) ∧
      ∃ r : InRec, r.face = g ∧ r.interest = i ∧ ((∃ e ∈ a.pit, r ∈ e.ins) ∨ P r)

theorem NacksFrom.none {P : InRec → Prop} {a b : St} (h : b.sent = a.sent) : NacksFrom Q P a b := ⟨[], by simp [h], by simp⟩

theorem NacksFrom.trans {P : InRec → Prop} {a b c : St} (hf : b.faces = a.faces) (hx : InsFrom P a b) (h : NacksFrom Q P a b)
    (h' : NacksFrom Q P b c) : NacksFrom Q P a c := by
  obtain ⟨n, h1, h2⟩ := h
  obtain ⟨m, g1, g2⟩ := h'
  refine ⟨n ++ m, by rw [g1, h1, List.append_assoc], ?_⟩
  intro g i k hm
  rcases List.mem_append.1 hm with hm | hm
  · exact h2 g i k hm
  · rw [hf] at g2
    rcases g2 g i k hm with hq | ⟨hp, r, r1, r2, ⟨e, he, hr⟩ | hr⟩
    · exact Or.inl hq
    · refine Or.inr ⟨hp, r, r1, r2, ?_⟩
      rcases hx e he r hr with ⟨e0, k1, -, k3⟩ | k
      · exact Or.inl ⟨e0, k1, k3⟩
      · exact Or.inr k
    · exact Or.inr ⟨hp, r, r1, r2, Or.inr hr⟩

theorem Prim.nacksFrom {a b : St} (p : Prim env Q R a b) (hi : Inv a) : NacksFrom Q (NewIn R) a b := by
  cases p with
  | aux => exact .none rfl
  | interest u i g =>
    unfold onOutgoingInterest
    split
    · split
      · exact .none rfl
      · exact ⟨[.interest g i], rfl, by simp⟩
    · exact .none rfl
  | data d g =>
    unfold onOutgoingData
    split
    · exact .none rfl
    · split
      · exact .none rfl
      · exact ⟨[.data g d], rfl, by simp⟩
  | nack u k g =>
    rcases outgoingNack_cases a u k g with he | ⟨fi, e, rec, h1, h2, h3, h4, h5, -, h6⟩
    · rw [he]; exact .none rfl
    · refine ⟨[.nack g rec.interest k], h6, ?_⟩
      intro g' i' k' hm
      simp only [List.mem_singleton, Pkt.nack.injEq] at hm
      obtain ⟨rfl, rfl, rfl⟩ := hm
      exact Or.inr ⟨⟨fi, h1, h2⟩, rec, h5, rfl, Or.inl ⟨e, (find_some h3).1, h4⟩⟩
  | nackPkt i k g h =>
    unfold sendNackPacket
    split
    · exact .none rfl
    · refine ⟨[.nack g i k], rfl, ?_⟩
      intro g' i' k' hm
      simp only [List.mem_singleton, Pkt.nack.injEq] at hm
      obtain ⟨rfl, rfl, rfl⟩ := hm
      exact Or.inl h
  | timer u ms => exact .none (timer_sent ..)
  | record i f fi hr hf hs hd =>
    refine .none ?_
    unfold recordInterest
    exact (timer_sent ..).trans (insert_frame a i).2.2.2.2.2.2
  | hit i d => exact .none ((timer_sent ..).trans (insert_frame a i).2.2.2.2.2.2)
  | satisfy => exact .none rfl
  | delIn => exact .none rfl
  | delOut => exact .none rfl
  | clearOut => exact .none rfl
  | setNack => exact .none rfl
  | finalize _ t ht hd h =>
    obtain ⟨e, s2, he, hu, hfin, -, -, -, -, hs, -⟩ := finalize_spec (env := env) hi ht
    rw [hfin] at h
    cases h
    exact .none hs

theorem Path.nacksFrom {a b : St} (p : Path env Q R a b) (hi : Inv a) : NacksFrom Q (NewIn R) a b := by
  induction p with
  | refl => exact .none rfl
  | head p _ ih => exact NacksFrom.trans p.frame.faces (p.insFrom hi) (p.nacksFrom hi) (ih (p.inv hi))

theorem step_nacksFrom {st : Strategy} {ev : Event} (hQ : Respects ev.loops Q st) {s s' : St} (hi : Inv s) (h : step env st s ev = some s') :
    NacksFrom Q (NewIn ev.recv) s s' := by
  cases he : ev.isFrame with
  | false => exact (step_path hQ he h).nacksFrom hi
  | true =>
    cases ev with
    | tick dt => cases h; exact .none rfl
    | addFace f fi =>
      simp only [step] at h
      cases h
      split <;> exact .none rfl
    | removeFace f => cases h; exact .none rfl
    | _ => simp [Event.isFrame] at he

/-- Every pending Interest was received, in this history, from the face it is recorded for. -/
theorem run_origin {l : List (Strategy × Event)} : ∀ {s s' : St} {P : InRec → Prop}, Inv s → (∀ e ∈ s.pit, ∀ r ∈ e.ins, P r) →
    (∀ x ∈ l, ∀ r, NewIn x.2.recv r → P r) → run env s l = some s' → ∀ e ∈ s'.pit, ∀ r ∈ e.ins, P r := by
  induction l with
  | nil => intro s s' P _ hp _ h; cases h; exact hp
  | cons x l ih =>
    intro s s' P hi hp hn h
    simp only [run, Option.bind_eq_some_iff] at h
    obtain ⟨s1, h1, h2⟩ := h
    refine ih (step_inv hi h1) ?_ (fun y hy => hn y (List.mem_cons_of_mem _ hy)) h2
    intro e he r hr
    rcases step_insFrom hi h1 e he r hr with ⟨e0, k1, -, k3⟩ | k
    · exact hp e0 k1 r k3
    · exact hn x (List.mem_cons_self ..) r k

end Verif.Fw
