import Verif.Nt.Tree

namespace Verif.Nt

open List

variable {T : Type}

/-! ### Longest prefix match -/

theorem IsLongest.unique {Acc : Name → Prop} {name : Name} {r r' : Option Name} (h : IsLongest Acc name r) (h' : IsLongest Acc name r') :
    r = r' := by
  cases r with
  | none =>
    cases r' with
    | none => rfl
    | some m' => exact absurd h'.2.2.1 (h m' h'.1 h'.2.1)
  | some m =>
    cases r' with
    | none => exact absurd h.2.2.1 (h' m h.1 h.2.1)
    | some m' =>
      have h1 := h.2.2.2 m' h'.1 h'.2.1 h'.2.2.1
      have h2 := h'.2.2.2 m h.1 h.2.1 h.2.2.1
      have : m.length = m'.length := by omega
      rw [List.prefix_iff_eq_take.1 h.1, List.prefix_iff_eq_take.1 h'.1, this]

theorem acc_iff {c : Cfg T} {t : Tree T} {sel : Name → Nte T → Bool} {m : Name} :
    (t.find c.ch m).any (sel m) = true ↔ Acc c t sel m := by
  unfold Acc
  cases t.find c.ch m <;> simp

theorem take_of_prefix_le {m name : Name} {i : Nat} (h : m <+: name) (hl : m.length ≤ i) : m <+: name.take i := by
  rw [List.prefix_take_iff]; exact ⟨h, hl⟩

theorem lpmLoop_spec (c : Cfg T) (t : Tree T) (sel : Name → Nte T → Bool) (name : Name) (i : Nat) (hi : i ≤ name.length) :
    (∀ m, lpmLoop c t sel name i = some m → m <+: name ∧ m.length ≤ i ∧ Acc c t sel m ∧
      ∀ m', m' <+: name → m'.length ≤ i → Acc c t sel m' → m'.length ≤ m.length) ∧
    (lpmLoop c t sel name i = none → ∀ m', m' <+: name → m'.length ≤ i → ¬ Acc c t sel m') := by
  induction i with
  | zero =>
    rw [lpmLoop]
    by_cases h : Acc c t sel (name.take 0)
    · rw [if_pos (acc_iff.2 h)]
      refine ⟨?_, by simp⟩
      intro m hm
      cases hm
      exact ⟨List.take_prefix _ _, by simp, h, by intro m' _ h1 _; simpa using h1⟩
    · rw [if_neg (fun hh => h (acc_iff.1 hh))]
      refine ⟨by simp, ?_⟩
      intro _ m' h1 h2
      have : m' = [] := List.length_eq_zero_iff.1 (by omega)
      subst this
      simpa using h
  | succ i ih =>
    obtain ⟨ih1, ih2⟩ := ih (by omega)
    rw [lpmLoop]
    have hl : (name.take (i + 1)).length = i + 1 := by simp; omega
    by_cases h : Acc c t sel (name.take (i + 1))
    · rw [if_pos (acc_iff.2 h)]
      refine ⟨?_, by simp⟩
      intro m hm
      cases hm
      exact ⟨List.take_prefix _ _, by omega, h, by intro m' _ h1 _; omega⟩
    · rw [if_neg (fun hh => h (acc_iff.1 hh))]
      constructor
      · intro m hm
        obtain ⟨h1, h2, h3, h4⟩ := ih1 m hm
        refine ⟨h1, by omega, h3, ?_⟩
        intro m' h5 h6 h7
        by_cases he : m'.length = i + 1
        · have : m' = name.take (i + 1) := by rw [← he]; exact List.prefix_iff_eq_take.1 h5
          rw [this] at h7; exact absurd h7 h
        · exact h4 m' h5 (by omega) h7
      · intro hn m' h5 h6 h7
        by_cases he : m'.length = i + 1
        · have : m' = name.take (i + 1) := by rw [← he]; exact List.prefix_iff_eq_take.1 h5
          rw [this] at h7; exact absurd h7 h
        · exact ih2 hn m' h5 (by omega) h7

theorem lpm_spec (c : Cfg T) (t : Tree T) (sel : Name → Nte T → Bool) (name : Name) :
    IsLongest (Acc c t sel) name (lpm c t sel name) := by
  obtain ⟨h1, h2⟩ := lpmLoop_spec c t sel name (min name.length maxDepth) (by omega)
  unfold lpm
  cases hr : lpmLoop c t sel name (min name.length maxDepth) with
  | some m =>
    obtain ⟨a, b, d, e⟩ := h1 m hr
    refine ⟨a, by omega, d, ?_⟩
    intro m' h3 h4 h5
    exact e m' h3 (by have := h3.length_le; omega) h5
  | none =>
    intro m' h3 h4 h5
    exact h2 hr m' h3 (by have := h3.length_le; omega) h5

theorem lpmEntry_spec {c : Cfg T} {t : Tree T} (h : TreeInv c t) (sel : Name → Nte T → Bool) (fuel : Nat) :
    ∀ {n : Name}, (t.find c.ch n).isSome → n.length < fuel →
      ∃ r, lpmEntry c t sel fuel (some n) = some r ∧ IsLongest (Acc c t sel) n r := by
  induction fuel with
  | zero => intro n _ h; omega
  | succ fuel ih =>
    intro n hs hl
    obtain ⟨e, he⟩ := Option.isSome_iff_exists.1 hs
    rw [lpmEntry]
    simp only [he]
    split
    · rename_i hsel
      exact ⟨_, rfl, List.prefix_refl _, h.depth _ _ he, ⟨e, he, hsel⟩, fun m' h1 _ _ => h1.length_le⟩
    · rename_i hsel
      have hna : ¬ Acc c t sel n := by
        rintro ⟨e', he', hs'⟩; rw [he] at he'; cases he'; exact hsel hs'
      by_cases hn : n = []
      · subst hn
        rw [h.root e he]
        refine ⟨none, by cases fuel <;> rfl, ?_⟩
        intro m' h1 _ h3
        rw [List.prefix_nil.1 h1] at h3
        exact hna h3
      · obtain ⟨hp, p, hpf, -⟩ := h.par n e he hn
        rw [hp]
        obtain ⟨r, hr, hr2⟩ := ih (n := n.dropLast) (by simp [hpf]) (by
          have := List.length_pos_iff.2 hn
          simp; omega)
        refine ⟨r, hr, ?_⟩
        cases r with
        | none =>
          intro m' h1 h2 h3
          rcases (dropLast_prefix_iff hn).1 h1 with rfl | h1
          · exact hna h3
          · exact hr2 m' h1 h2 h3
        | some m =>
          obtain ⟨a, b, d, f⟩ := hr2
          refine ⟨(dropLast_prefix_iff hn).2 (.inr a), b, d, ?_⟩
          intro m' h1 h2 h3
          rcases (dropLast_prefix_iff hn).1 h1 with rfl | h1
          · exact absurd h3 hna
          · exact f m' h1 h2 h3

theorem findExact_eq (c : Cfg T) (t : Tree T) (name : Name) (k : Nat) (h1 : k ≤ name.length) (h2 : k ≤ maxDepth) :
    findExact c t name k = (t.find c.ch (name.take k)).map (name.take k, ·) := by
  unfold findExact
  simp only [Nat.min_eq_right h1]
  rw [if_neg (by omega)]

/-- Going deeper reaches the longest stored prefix. -/
theorem deeper_spec {c : Cfg T} {t : Tree T} (h : TreeInv c t) {name : Name} (k : Nat) : ∀ {i : Nat},
    (t.find c.ch (name.take i)).isSome → i + k ≤ name.length → i + k ≤ maxDepth →
    (t.find c.ch (deeper c t name k (i + 1) (name.take i))).isSome ∧ deeper c t name k (i + 1) (name.take i) <+: name ∧
    ∀ m, m <+: name → m.length ≤ i + k → (t.find c.ch m).isSome → m <+: deeper c t name k (i + 1) (name.take i) := by
  induction k with
  | zero =>
    intro i hs h1 h2
    refine ⟨hs, List.take_prefix _ _, ?_⟩
    intro m hm hl _
    exact take_of_prefix_le hm hl
  | succ k ih =>
    intro i hs h1 h2
    rw [deeper, findExact_eq c t name (i + 1) (by omega) (by omega)]
    cases hf : t.find c.ch (name.take (i + 1)) with
    | none =>
      refine ⟨hs, List.take_prefix _ _, ?_⟩
      intro m hm hl hms
      by_cases hle : m.length ≤ i
      · exact take_of_prefix_le hm hle
      · have : name.take (i + 1) <+: m := by
          rw [List.prefix_iff_eq_take.1 hm]
          exact List.take_prefix_take_left (by omega)
        have := stored_prefix h this hms
        rw [hf] at this; simp at this
    | some e =>
      simp only [Option.map_some]
      obtain ⟨a, b, d⟩ := ih (i := i + 1) (by simp [hf]) (by omega) (by omega)
      exact ⟨a, b, fun m h1 h2 h3 => d m h1 (by omega) h3⟩

theorem lpmPit_spec {c : Cfg T} {t : Tree T} (h : TreeInv c t) (sel : Name → Nte T → Bool) {pitName nte : Name}
    (hs : (t.find c.ch nte).isSome) (hp : nte <+: pitName) :
    ∃ r, lpmPit c t sel pitName nte = some r ∧ IsLongest (Acc c t sel) pitName r := by
  unfold lpmPit
  simp only
  have key : ∃ n, (if nte.length < pitName.length then
        deeper c t pitName (min pitName.length maxDepth - nte.length) (nte.length + 1) nte else nte) = n ∧
      (t.find c.ch n).isSome ∧ n <+: pitName ∧
      ∀ m, m <+: pitName → m.length ≤ maxDepth → (t.find c.ch m).isSome → m <+: n := by
    obtain ⟨e, he⟩ := Option.isSome_iff_exists.1 hs
    have hd := h.depth _ _ he
    split
    · rename_i hl
      have hnt := List.prefix_iff_eq_take.1 hp
      have := deeper_spec h (name := pitName) (min pitName.length maxDepth - nte.length) (i := nte.length)
        (by rw [← hnt]; exact hs) (by omega) (by omega)
      rw [← hnt] at this
      refine ⟨_, rfl, this.1, this.2.1, ?_⟩
      intro m h1 h2 h3
      exact this.2.2 m h1 (by have := h1.length_le; omega) h3
    · rename_i hl
      have : nte = pitName := hp.eq_of_length (by have := hp.length_le; omega)
      subst this
      exact ⟨_, rfl, hs, List.prefix_refl _, fun m h1 _ _ => h1⟩
  obtain ⟨n, e, h1, h2, h3⟩ := key
  rw [e]
  obtain ⟨r, hr, hr2⟩ := lpmEntry_spec h sel (n.length + 1) h1 (by omega)
  refine ⟨r, hr, ?_⟩
  cases r with
  | none =>
    intro m' a b d
    obtain ⟨e', he', hsel⟩ := d
    exact hr2 m' (h3 m' a b (by simp [he'])) b ⟨e', he', hsel⟩
  | some m =>
    obtain ⟨a, b, d, f⟩ := hr2
    refine ⟨a.trans h2, b, d, ?_⟩
    intro m' h4 h5 h6
    have h6' := h6
    obtain ⟨e', he', -⟩ := h6
    exact f m' (h3 m' h4 h5 (by simp [he'])) h5 h6'

/-! ### findAllMatches -/

theorem climb_spec {c : Cfg T} {t : Tree T} (h : TreeInv c t) (sel : Name → Nte T → Bool) (fuel : Nat) :
    ∀ {n : Name}, (t.find c.ch n).isSome → n.length < fuel →
      ∃ l, climb c t sel fuel (some n) = some l ∧ (∀ m, m ∈ l ↔ m <+: n ∧ Acc c t sel m) ∧ l.Pairwise (fun a b => b.length < a.length) := by
  induction fuel with
  | zero => intro n _ h; omega
  | succ fuel ih =>
    intro n hs hl
    obtain ⟨e, he⟩ := Option.isSome_iff_exists.1 hs
    rw [climb]
    simp only [he]
    have hsel : Acc c t sel n ↔ sel n e = true := by
      constructor
      · rintro ⟨e', he', hs'⟩; rw [he] at he'; cases he'; exact hs'
      · intro hh; exact ⟨e, he, hh⟩
    by_cases hn : n = []
    · subst hn
      rw [h.root e he]
      refine ⟨_, by cases fuel <;> rfl, ?_, by split <;> simp⟩
      intro m
      split
      · rename_i hh
        simp only [List.mem_singleton]
        constructor
        · rintro rfl; exact ⟨List.prefix_refl _, hsel.2 hh⟩
        · rintro ⟨h1, -⟩; exact List.prefix_nil.1 h1
      · rename_i hh
        simp only [List.not_mem_nil, false_iff]
        rintro ⟨h1, h2⟩
        rw [List.prefix_nil.1 h1] at h2
        exact hh (hsel.1 h2)
    · obtain ⟨hp, p, hpf, -⟩ := h.par n e he hn
      rw [hp]
      have hlen := List.length_pos_iff.2 hn
      obtain ⟨l, hl1, hl2, hl3⟩ := ih (n := n.dropLast) (by simp [hpf]) (by simp; omega)
      refine ⟨_, by rw [hl1]; rfl, ?_, ?_⟩
      · intro m
        rw [dropLast_prefix_iff hn]
        have : ∀ m, m ∈ l → m ≠ n := by
          rintro m hm rfl
          have := ((hl2 _).1 hm).1.length_le
          simp at this; omega
        split
        · rename_i hh
          rw [List.mem_cons, hl2]
          constructor
          · rintro (rfl | ⟨h1, h2⟩)
            · exact ⟨.inl rfl, hsel.2 hh⟩
            · exact ⟨.inr h1, h2⟩
          · rintro ⟨rfl | h1, h2⟩
            · exact .inl rfl
            · exact .inr ⟨h1, h2⟩
        · rename_i hh
          rw [hl2]
          constructor
          · rintro ⟨h1, h2⟩; exact ⟨.inr h1, h2⟩
          · rintro ⟨rfl | h1, h2⟩
            · exact absurd (hsel.1 h2) hh
            · exact ⟨h1, h2⟩
      · split
        · rw [List.pairwise_cons]
          refine ⟨?_, hl3⟩
          intro m hm
          have := ((hl2 _).1 hm).1.length_le
          simp at this; omega
        · exact hl3

/-! ### Full enumeration -/

variable {α : Type}

theorem firstIn_eq (sel : Name → α → Bool) (bs : List (List (Node α))) :
    firstIn sel bs = (bs.flatten.find? (fun n => sel n.name n.entry)).map (·.name) := by
  induction bs with
  | nil => rfl
  | cons b bs ih =>
    rw [firstIn, List.flatten_cons, List.find?_append]
    cases b.find? (fun n => sel n.name n.entry) with
    | none => simpa using ih
    | some n => simp

theorem dropWhile_at {p q : List (Node α)} {n : Node α} (hnd : ((p ++ n :: q).map (·.name)).Nodup) :
    (p ++ n :: q).dropWhile (fun m => m.name != n.name) = n :: q := by
  induction p with
  | nil => simp
  | cons x p ih =>
    simp only [List.cons_append, List.map_cons, List.nodup_cons] at hnd
    have : x.name ≠ n.name := by
      intro h; apply hnd.1; rw [h]; simp
    rw [List.cons_append, List.dropWhile_cons_of_pos (by simpa using this)]
    exact ih hnd.2

/-- What follows a node in bucket order. -/
theorem split_at {bs : List (List (Node α))} {pre post : List (Node α)} {n : Node α} (h : bs.flatten = pre ++ n :: post)
    (hnd : (bs.flatten.map (·.name)).Nodup) {i : Nat} {b : List (Node α)} (hi : bs[i]? = some b) (hb : n ∈ b) :
    ∃ p q, b = p ++ n :: q ∧ post = q ++ (bs.drop (i + 1)).flatten := by
  obtain ⟨p, q, rfl⟩ := List.append_of_mem hb
  have hlt : i < bs.length := by
    rcases Nat.lt_or_ge i bs.length with h | h
    · exact h
    · rw [List.getElem?_eq_none h] at hi; simp at hi
  have hbs : bs = bs.take i ++ (p ++ n :: q) :: bs.drop (i + 1) := by
    rw [List.getElem?_eq_getElem hlt] at hi
    have := List.take_append_drop i bs
    rw [List.drop_eq_getElem_cons hlt] at this
    simp only [Option.some.injEq] at hi
    rw [hi] at this
    exact this.symm
  refine ⟨p, q, rfl, ?_⟩
  have e : bs.flatten = ((bs.take i).flatten ++ p) ++ n :: (q ++ (bs.drop (i + 1)).flatten) := by
    conv => lhs; rw [hbs]
    simp
  rw [e] at h hnd
  -- n occurs once
  have huniq : ∀ {a1 b1 a2 b2 : List (Node α)}, a1 ++ n :: b1 = a2 ++ n :: b2 → ((a1 ++ n :: b1).map (·.name)).Nodup → b1 = b2 := by
    intro a1
    induction a1 with
    | nil =>
      intro b1 a2 b2 he hn
      cases a2 with
      | nil => simpa using he
      | cons y a2 =>
        simp only [List.nil_append, List.cons_append, List.cons.injEq] at he
        obtain ⟨-, rfl⟩ := he
        simp at hn
    | cons x a1 ih =>
      intro b1 a2 b2 he hn
      cases a2 with
      | nil =>
        simp only [List.nil_append, List.cons_append, List.cons.injEq] at he
        obtain ⟨rfl, -⟩ := he
        simp at hn
      | cons y a2 =>
        simp only [List.cons_append, List.cons.injEq] at he
        simp only [List.cons_append, List.map_cons, List.nodup_cons] at hn
        exact ih he.2 hn.2
  exact (huniq h hnd).symm

theorem fullAdvance_some {ch : Component → Nat} {t : Hashtable α} (h : HtInv ch t) (sel : Name → α → Bool)
    {pre post : List (Node α)} {n : Node α} (he : t.buckets.flatten = pre ++ n :: post) :
    fullAdvance ch t sel (some n.name) = (post.find? (fun n => sel n.name n.entry)).map (·.name) := by
  have hn : n ∈ t.buckets.flatten := by rw [he]; simp
  obtain ⟨i, b, hib, hnb⟩ := mem_flatten_iff.1 hn
  obtain ⟨hh, hm⟩ := h.place i b hib n hnb
  obtain ⟨p, q, rfl, rfl⟩ := split_at he h.nodup hib hnb
  have hidx : t.bucketIndex (computeHash ch n.name) = i := by rw [← hh]; exact hm
  have hnd : ((p ++ n :: q).map (·.name)).Nodup := by
    refine List.Nodup.sublist (List.Sublist.map _ ?_) h.nodup
    exact List.sublist_flatten_of_mem (List.mem_of_getElem? hib)
  unfold fullAdvance
  simp only [hidx]
  rw [List.getD_eq_getElem?_getD, hib, Option.getD_some, dropWhile_at hnd, List.tail_cons, firstIn_eq, List.find?_append]
  cases q.find? (fun n => sel n.name n.entry) <;> simp

theorem fullFrom_spec {ch : Component → Nat} {t : Hashtable α} (h : HtInv ch t) (sel : Name → α → Bool) (fuel : Nat) :
    ∀ {pre post : List (Node α)} {n : Node α}, t.buckets.flatten = pre ++ n :: post → post.length < fuel →
      fullFrom ch t sel fuel (some n.name) = (post.filter (fun n => sel n.name n.entry)).map (·.name) := by
  induction fuel with
  | zero => intro pre post n _ h; omega
  | succ fuel ih =>
    intro pre post n he hl
    rw [fullFrom, fullAdvance_some h sel he]
    cases hf : post.find? (fun n => sel n.name n.entry) with
    | none =>
      have : post.filter (fun n => sel n.name n.entry) = [] := by
        rw [List.filter_eq_nil_iff]
        exact List.find?_eq_none.1 hf
      simp [this]
    | some m =>
      obtain ⟨hm, a, b, rfl, hb⟩ := List.find?_eq_some_iff_append.1 hf
      have h1 : (a ++ m :: b).filter (fun n => sel n.name n.entry) = m :: b.filter (fun n => sel n.name n.entry) := by
        rw [List.filter_append, List.filter_cons_of_pos (p := fun n : Node α => sel n.name n.entry) hm]
        have : a.filter (fun n => sel n.name n.entry) = [] := by
          rw [List.filter_eq_nil_iff]
          intro x hx
          have := hb x hx
          simpa using this
        rw [this, List.nil_append]
      rw [h1]
      simp only [Option.map_some, List.map_cons]
      congr 1
      apply ih (pre := pre ++ n :: a)
      · rw [he]; simp
      · simp at hl; omega

theorem fullEnumerate_spec {ch : Component → Nat} {t : Hashtable α} (h : HtInv ch t) (sel : Name → α → Bool) (fuel : Nat)
    (hf : t.buckets.flatten.length < fuel) :
    fullFrom ch t sel fuel none = (t.buckets.flatten.filter (fun n => sel n.name n.entry)).map (·.name) := by
  cases fuel with
  | zero => omega
  | succ fuel =>
    cases hfl : t.buckets.flatten with
    | nil =>
      rw [fullFrom, fullAdvance]
      simp [firstIn_eq, hfl]
    | cons n post =>
      have he : t.buckets.flatten = [] ++ n :: post := hfl
      have hadv : fullAdvance ch t sel none = if sel n.name n.entry then some n.name else fullAdvance ch t sel (some n.name) := by
        unfold fullAdvance
        have h1 : firstIn (fun _ _ => true) t.buckets = some n.name := by simp [firstIn_eq, hfl]
        have h2 : t.find ch n.name = some n.entry := (find_iff h n.name n.entry).2 ⟨n, by simp [hfl], rfl, rfl⟩
        simp only [h1, h2]
      rw [hfl] at hf
      simp only [List.length_cons] at hf
      rw [fullFrom, hadv]
      by_cases hs : sel n.name n.entry = true
      · rw [if_pos hs, List.filter_cons_of_pos (by simpa using hs)]
        simp only [List.map_cons]
        rw [fullFrom_spec h sel fuel he (by omega)]
      · rw [if_neg hs, List.filter_cons_of_neg (by simpa using hs)]
        have := fullFrom_spec h sel (fuel + 1) he (by omega)
        rw [fullFrom] at this
        exact this

/-! ### Partial enumeration -/

section
variable (c : Cfg T) (t : Tree T) (sel : Name → Nte T → Bool × Bool)

/-- Pre-order listing, descending at most `d` levels. -/
def pre : Nat → Name → List Name
  | 0, _ => []
  | d + 1, n =>
    match t.find c.ch n with
    | none => []
    | some e => (if (sel n e).1 then [n] else []) ++ (if (sel n e).2 then e.children.flatMap (pre d) else [])

/-- The whole subtree. -/
def preAll (d : Nat) (n : Name) : List Name := pre c t (fun _ _ => (true, true)) d n

/-- Runs of the traversal loop, of at most `b` rounds. -/
def RunsTo (b : Nat) (ref : Name) (s : Name × Bool) (out : List Name) (s' : Name × Bool) : Prop :=
  ∃ k, k ≤ b ∧ ∀ fuel, partialRun c t sel ref (fuel + k) s.1 s.2 = (partialRun c t sel ref fuel s'.1 s'.2).map (out ++ ·)

variable {c t sel}

theorem RunsTo.trans {b b' : Nat} {ref : Name} {s s' s'' : Name × Bool} {o o' : List Name} (h : RunsTo c t sel b ref s o s')
    (h' : RunsTo c t sel b' ref s' o' s'') : RunsTo c t sel (b + b') ref s (o ++ o') s'' := by
  obtain ⟨k, hb, hk⟩ := h
  obtain ⟨k', hb', hk'⟩ := h'
  refine ⟨k' + k, by omega, fun fuel => ?_⟩
  rw [← Nat.add_assoc, hk, hk', Option.map_map]
  congr 1
  funext l
  simp

theorem RunsTo.mono {b b' : Nat} {ref : Name} {s s' : Name × Bool} {o : List Name} (h : RunsTo c t sel b ref s o s') (hb : b ≤ b') :
    RunsTo c t sel b' ref s o s' := by
  obtain ⟨k, hk, h⟩ := h
  exact ⟨k, by omega, h⟩

theorem RunsTo.refl {b : Nat} {ref : Name} (s : Name × Bool) : RunsTo c t sel b ref s [] s := ⟨0, by omega, fun fuel => by simp⟩

theorem RunsTo.step {ref n m : Name} {wc wc' y : Bool} (h : partialStep c t sel ref n wc = .at m wc' y) :
    RunsTo c t sel 1 ref (n, wc) (if y then [m] else []) (m, wc') := by
  refine ⟨1, by omega, fun fuel => ?_⟩
  rw [partialRun, h]
  cases y <;> simp

theorem nextSibling_spec (d : Nat) (l : List Name) (hs : ∀ k ∈ l, (t.find c.ch k).isSome) :
    (nextSibling c t sel l = some none ∧ l.flatMap (pre c t sel (d + 1)) = []) ∨
    ∃ l1 s l2 e, l = l1 ++ s :: l2 ∧ t.find c.ch s = some e ∧ nextSibling c t sel l = some (some (s, (sel s e).1, (sel s e).2)) ∧
      l1.flatMap (pre c t sel (d + 1)) = [] := by
  induction l with
  | nil => left; simp [nextSibling]
  | cons x l ih =>
    obtain ⟨e, he⟩ := Option.isSome_iff_exists.1 (hs x (by simp))
    by_cases hx : ((sel x e).1 || (sel x e).2) = true
    · right
      exact ⟨[], x, l, e, rfl, he, by simp only [nextSibling, he]; rw [if_pos hx], rfl⟩
    · have hpx : pre c t sel (d + 1) x = [] := by
        simp only [Bool.or_eq_true, not_or, Bool.not_eq_true] at hx
        rw [pre]
        simp [he, hx.1, hx.2]
      have hstep : nextSibling c t sel (x :: l) = nextSibling c t sel l := by
        conv => lhs; rw [nextSibling]
        simp only [he]
        rw [if_neg hx]
      rw [hstep]
      rcases ih (fun k hk => hs k (by simp [hk])) with ⟨h1, h2⟩ | ⟨l1, s, l2, e', h1, h2, h3, h4⟩
      · left; exact ⟨h1, by rw [List.flatMap_cons, hpx, h2]; rfl⟩
      · right
        exact ⟨x :: l1, s, l2, e', by rw [h1]; rfl, h2, h3, by rw [List.flatMap_cons, hpx, h4]; rfl⟩

theorem dropWhile_name {p q : List Name} {n : Name} (hnd : (p ++ n :: q).Nodup) :
    (p ++ n :: q).dropWhile (· != n) = n :: q := by
  induction p with
  | nil => simp
  | cons x p ih =>
    simp only [List.cons_append, List.nodup_cons] at hnd
    have : x ≠ n := by rintro rfl; exact hnd.1 (by simp)
    rw [List.cons_append, List.dropWhile_cons_of_pos (by simpa using this)]
    exact ih hnd.2

/-- The traversal lists the subtree below `n` and comes back to `n`. -/
theorem sub_run (h : TreeInv c t) {ref : Name} (d : Nat) : ∀ {n : Name} {e : Nte T}, t.find c.ch n = some e → ref <+: n →
    n.length + d = maxDepth →
    ∀ wc, RunsTo c t sel (2 * (e.children.flatMap (preAll c t d)).length) ref (n, wc) (if wc then e.children.flatMap (pre c t sel d) else []) (n, false) := by
  induction d with
  | zero =>
    intro n e he hr hl wc
    -- a node at maximal depth has no children
    have hc : e.children = [] := by
      cases hk : e.children with
      | nil => rfl
      | cons k ks =>
        obtain ⟨a, b, ke, hke⟩ := (h.kids n e he).2 k (by simp [hk])
        have h1 := h.depth _ _ hke
        have h2 := congrArg List.length b
        have h3 := List.length_pos_iff.2 a
        simp at h2; omega
    have : partialStep c t sel ref n wc = partialStep c t sel ref n false := by
      cases wc <;> simp [partialStep, he, hc]
    refine ⟨0, by omega, fun fuel => ?_⟩
    simp only [hc, List.flatMap_nil, ite_self, List.nil_append, Nat.add_zero]
    cases fuel with
    | zero => rfl
    | succ fuel => simp only [partialRun, this]; simp
  | succ d ih =>
    intro n e he hr hl wc
    cases hcs : e.children with
    | nil =>
      have : partialStep c t sel ref n wc = partialStep c t sel ref n false := by
        cases wc <;> simp [partialStep, he, hcs]
      refine ⟨0, by omega, fun fuel => ?_⟩
      simp only [List.flatMap_nil, ite_self, List.nil_append, Nat.add_zero]
      cases fuel with
      | zero => rfl
      | succ fuel => simp only [partialRun, this]; simp
    | cons k0 ks0 =>
      cases wc with
      | false => simpa using RunsTo.refl (n, false)
      | true =>
        rw [if_pos rfl]
        obtain ⟨hknd, hkk⟩ := h.kids n e he
        -- from a child that has just been reached, through its later siblings, back to n
        have chain : ∀ (m : Nat) (done : List Name) (k : Name) (rest : List Name) (ke : Nte T), rest.length = m →
            e.children = done ++ k :: rest → t.find c.ch k = some ke →
            RunsTo c t sel (2 * (ke.children.flatMap (preAll c t d)).length + 2 * (rest.flatMap (preAll c t (d + 1))).length + 1)
              ref (k, (sel k ke).2)
              ((if (sel k ke).2 then ke.children.flatMap (pre c t sel d) else []) ++ rest.flatMap (pre c t sel (d + 1))) (n, false) := by
          intro m
          induction m using Nat.strongRecOn with
          | _ m ihm =>
            intro done k rest ke hm hsplit hke
            obtain ⟨a, b, -⟩ := hkk k (by rw [hsplit]; simp)
            have hlk : k.length = n.length + 1 := by
              have h2 := congrArg List.length b
              have h3 := List.length_pos_iff.2 a
              simp at h2; omega
            have hrk : ref <+: k := hr.trans ((dropLast_prefix_iff a).2 (.inr (by rw [b]; exact List.prefix_refl _)))
            have hcomb : ∀ {o}, RunsTo c t sel (2 * (rest.flatMap (preAll c t (d + 1))).length + 1) ref (k, false) o (n, false) →
                RunsTo c t sel (2 * (ke.children.flatMap (preAll c t d)).length + 2 * (rest.flatMap (preAll c t (d + 1))).length + 1)
                  ref (k, (sel k ke).2) ((if (sel k ke).2 then ke.children.flatMap (pre c t sel d) else []) ++ o) (n, false) := by
              intro o ho
              exact ((ih hke hrk (by omega) _).trans ho).mono (by omega)
            refine hcomb ?_
            have hkne : k ≠ ref := by
              rintro rfl
              have := hr.length_le
              omega
            have hpar := (h.par k ke hke a).1
            rw [b] at hpar
            have hstep : partialStep c t sel ref k false =
                (match nextSibling c t sel rest with
                  | none => .fault
                  | some none => .at n false false
                  | some (some (s, ws, wc)) => .at s wc ws) := by
              unfold partialStep
              simp only [hke, hpar, he]
              rw [if_neg hkne, if_pos (by rw [hsplit]; simp), hsplit, dropWhile_name (by rw [← hsplit]; exact hknd), List.tail_cons]
              rfl
            rcases nextSibling_spec (c := c) (t := t) (sel := sel) d rest (fun x hx => by
                obtain ⟨-, -, xe, hxe⟩ := hkk x (by rw [hsplit]; simp [hx])
                simp [hxe]) with ⟨h1, h2⟩ | ⟨l1, s, l2, se, h1, h2, h3, h4⟩
            · rw [h1] at hstep
              rw [h2]
              simpa using (RunsTo.step hstep).mono (by omega)
            · rw [h3] at hstep
              have hs := RunsTo.step hstep
              have hrec := ihm l2.length (by rw [← hm, h1]; simp; omega) (done ++ k :: l1) s l2 se rfl (by rw [hsplit, h1]; simp) h2
              have := hs.trans hrec
              have hlen : 1 + (2 * (se.children.flatMap (preAll c t d)).length + 2 * (l2.flatMap (preAll c t (d + 1))).length + 1) ≤
                  2 * (rest.flatMap (preAll c t (d + 1))).length + 1 := by
                rw [h1, List.flatMap_append, List.length_append, List.flatMap_cons, List.length_append]
                have : preAll c t (d + 1) s = s :: se.children.flatMap (preAll c t d) := by
                  rw [preAll, pre]; simp only [h2]; rfl
                rw [this, List.length_cons]
                omega
              have := this.mono hlen
              have hfl : rest.flatMap (pre c t sel (d + 1)) = (if (sel s se).1 then [s] else []) ++
                  ((if (sel s se).2 then se.children.flatMap (pre c t sel d) else []) ++ l2.flatMap (pre c t sel (d + 1))) := by
                rw [h1, List.flatMap_append, h4, List.nil_append, List.flatMap_cons, pre]
                simp only [h2]
                rw [List.append_assoc]
              rw [hfl]
              exact this
        obtain ⟨-, -, ke, hke⟩ := hkk k0 (by rw [hcs]; simp)
        have hstep : partialStep c t sel ref n true = .at k0 (sel k0 ke).2 (sel k0 ke).1 := by
          unfold partialStep
          simp only [he, hcs, hke]
        have := (RunsTo.step hstep).trans (chain _ [] k0 ks0 ke rfl hcs hke)
        have := this.mono (b' := 2 * ((k0 :: ks0).flatMap (preAll c t (d + 1))).length) (by
          rw [List.flatMap_cons, List.length_append]
          have : preAll c t (d + 1) k0 = k0 :: ke.children.flatMap (preAll c t d) := by
            rw [preAll, pre]; simp only [hke]; rfl
          rw [this, List.length_cons]
          omega)
        rw [List.flatMap_cons (f := pre c t sel (d + 1)), pre]
        simp only [hke]
        rw [List.append_assoc]
        exact this

theorem partialEnumerate_pre (h : TreeInv c t) (ref : Name) :
    ∃ fuel0, fuel0 ≤ 2 * (preAll c t (maxDepth + 1 - ref.length) ref).length + 1 ∧
      ∀ fuel, fuel0 ≤ fuel → partialEnumerate c t sel fuel ref = some (pre c t sel (maxDepth + 1 - ref.length) ref) := by
  by_cases hd : ref.length ≤ maxDepth
  · unfold partialEnumerate
    rw [findExact_eq c t ref _ (Nat.le_refl _) hd, List.take_length]
    have hsub : maxDepth + 1 - ref.length = (maxDepth - ref.length) + 1 := by omega
    rw [hsub, preAll, pre, pre]
    cases he : t.find c.ch ref with
    | none => exact ⟨0, by omega, by simp⟩
    | some e =>
      obtain ⟨k, hkb, hk⟩ := sub_run (sel := sel) h (maxDepth - ref.length) he (List.prefix_refl ref) (by omega) (sel ref e).2
      refine ⟨k + 1, ?_, fun fuel hf => ?_⟩
      · simp only [if_pos, List.length_append, List.length_cons, List.length_nil]
        have : (e.children.flatMap (preAll c t (maxDepth - ref.length))).length =
            (e.children.flatMap (pre c t (fun _ _ => (true, true)) (maxDepth - ref.length))).length := rfl
        omega
      obtain ⟨f, rfl⟩ : ∃ f, fuel = (f + 1) + k := ⟨fuel - k - 1, by omega⟩
      simp only [Option.map_some, hk]
      have hdone : partialRun c t sel ref (f + 1) ref false = some [] := by
        rw [partialRun]
        have : partialStep c t sel ref ref false = .done := by simp [partialStep, he]
        rw [this]
      rw [hdone]
      cases (sel ref e).1 <;> simp
  · refine ⟨0, by omega, fun fuel _ => ?_⟩
    unfold partialEnumerate findExact
    simp only [Nat.min_self]
    rw [if_pos (by omega)]
    have : maxDepth + 1 - ref.length = 0 := by omega
    rw [this, pre]

theorem mem_pre (h : TreeInv c t) (d : Nat) : ∀ {n : Name}, n.length + d = maxDepth + 1 → ∀ m,
    m ∈ pre c t sel d n ↔ n <+: m ∧ WantSelf c t sel m ∧ ∀ a, n <+: a → a <+: m → a ≠ m → WantChildren c t sel a := by
  induction d with
  | zero =>
    intro n hl m
    simp only [pre, List.not_mem_nil, false_iff]
    rintro ⟨h1, ⟨e, he, -⟩, -⟩
    have := h.depth m e he
    have := h1.length_le
    omega
  | succ d ih =>
    intro n hl m
    rw [pre]
    cases he : t.find c.ch n with
    | none =>
      simp only [List.not_mem_nil, false_iff]
      rintro ⟨h1, ⟨e, he', -⟩, -⟩
      have := stored_prefix h h1 (by simp [he'])
      simp [he] at this
    | some e =>
      have hws : WantSelf c t sel n ↔ (sel n e).1 = true := by
        constructor
        · rintro ⟨e', he', hh⟩; rw [he] at he'; cases he'; exact hh
        · intro hh; exact ⟨e, he, hh⟩
      have hwc : WantChildren c t sel n ↔ (sel n e).2 = true := by
        constructor
        · rintro ⟨e', he', hh⟩; rw [he] at he'; cases he'; exact hh
        · intro hh; exact ⟨e, he, hh⟩
      have hk := (h.kids n e he).2
      simp only
      rw [List.mem_append]
      have h1 : m ∈ (if (sel n e).1 = true then [n] else []) ↔ m = n ∧ WantSelf c t sel n := by
        rw [hws]; split <;> simp_all
      have h2 : m ∈ (if (sel n e).2 = true then e.children.flatMap (pre c t sel d) else []) ↔
          WantChildren c t sel n ∧ ∃ k ∈ e.children, m ∈ pre c t sel d k := by
        rw [hwc]; split <;> simp_all [List.mem_flatMap]
      rw [h1, h2]
      have klen : ∀ k ∈ e.children, n <+: k ∧ k.length = n.length + 1 := by
        intro k hkm
        obtain ⟨a, b, -⟩ := hk k hkm
        refine ⟨(dropLast_prefix_iff a).2 (.inr (by rw [b]; exact List.prefix_refl _)), ?_⟩
        have h2 := congrArg List.length b
        have h3 := List.length_pos_iff.2 a
        simp at h2; omega
      constructor
      · rintro (⟨rfl, hs⟩ | ⟨hc, k, hkm, hmk⟩)
        · refine ⟨List.prefix_refl _, hs, ?_⟩
          intro a h3 h4 h5
          exact absurd (h4.eq_of_length (by have := h3.length_le; have := h4.length_le; omega)) h5
        · obtain ⟨h3, h4⟩ := klen k hkm
          obtain ⟨h5, h6, h7⟩ := (ih (by omega) m).1 hmk
          refine ⟨h3.trans h5, h6, ?_⟩
          intro a h8 h9 h10
          by_cases han : a = n
          · rw [han]; exact hc
          · refine h7 a ?_ h9 h10
            -- a is longer than n, hence at least k
            have hlen : n.length < a.length := by
              rcases Nat.lt_or_ge n.length a.length with hh | hh
              · exact hh
              · exact absurd (h8.eq_of_length (by have := h8.length_le; omega)).symm han
            rw [List.prefix_iff_eq_take.1 h9, List.prefix_iff_eq_take.1 h5]
            exact List.take_prefix_take_left (by omega)
      · rintro ⟨h3, h4, h5⟩
        by_cases hmn : m = n
        · subst hmn; exact .inl ⟨rfl, h4⟩
        · right
          have h4' := h4
          obtain ⟨me, hme, -⟩ := h4
          obtain ⟨k, hkm, hkp⟩ := child_of_ext h he (by simp [hme] : (t.find c.ch m).isSome) h3 hmn
          obtain ⟨h6, h7⟩ := klen k hkm
          refine ⟨h5 n (List.prefix_refl _) h3 (Ne.symm hmn), k, hkm, (ih (by omega) m).2 ⟨hkp, h4', ?_⟩⟩
          intro a h8 h9 h10
          exact h5 a (h6.trans h8) h9 h10

theorem nodup_pre (h : TreeInv c t) (d : Nat) : ∀ {n : Name}, n.length + d = maxDepth + 1 → (pre c t sel d n).Nodup := by
  induction d with
  | zero => intro n _; simp [pre]
  | succ d ih =>
    intro n hl
    rw [pre]
    cases he : t.find c.ch n with
    | none => simp
    | some e =>
      obtain ⟨hknd, hk⟩ := h.kids n e he
      have klen : ∀ k ∈ e.children, n <+: k ∧ k.length = n.length + 1 := by
        intro k hkm
        obtain ⟨a, b, -⟩ := hk k hkm
        refine ⟨(dropLast_prefix_iff a).2 (.inr (by rw [b]; exact List.prefix_refl _)), ?_⟩
        have h2 := congrArg List.length b
        have h3 := List.length_pos_iff.2 a
        simp at h2; omega
      simp only
      rw [List.nodup_append]
      refine ⟨by split <;> simp, ?_, ?_⟩
      · split
        · rw [List.Nodup, List.pairwise_flatMap]
          refine ⟨fun k hkm => ih (by have := (klen k hkm).2; omega), ?_⟩
          have hp : e.children.Pairwise (fun a b => a ≠ b) := hknd
          refine (List.Pairwise.and_mem.1 hp).imp ?_
          rintro a b ⟨ha, hb, hab⟩
          intro x hx y hx' hxy
          subst hxy
          obtain ⟨h1, h2⟩ := klen a ha
          obtain ⟨h3, h4⟩ := klen b hb
          have h5 := ((mem_pre h d (by omega) x).1 hx).1
          have h6 := ((mem_pre h d (by omega) x).1 hx').1
          apply hab
          rw [List.prefix_iff_eq_take.1 h5, List.prefix_iff_eq_take.1 h6, h2, h4]
        · simp
      · intro a ha b hb
        rintro rfl
        split at ha
        · simp only [List.mem_singleton] at ha
          subst ha
          split at hb
          · obtain ⟨k, hkm, hmk⟩ := List.mem_flatMap.1 hb
            obtain ⟨h1, h2⟩ := klen k hkm
            have := ((mem_pre h d (by omega) a).1 hmk).1.length_le
            omega
          · simp at hb
        · simp at ha

theorem preAll_length (h : TreeInv c t) {n : Name} (d : Nat) (hl : n.length + d = maxDepth + 1) : (preAll c t d n).length ≤ t.size := by
  have hs : t.size = (t.buckets.flatten.map (·.name)).length := by rw [h.ht.size, List.length_map]
  rw [hs]
  apply List.Nodup.length_le_of_subset (nodup_pre h d hl)
  intro m hm
  obtain ⟨-, ⟨e, he, -⟩, -⟩ := (mem_pre h d hl m).1 hm
  obtain ⟨k, hk, hkn, -⟩ := (find_iff h.ht m e).1 he
  exact List.mem_map.2 ⟨k, hk, hkn⟩

/-- Twice as many rounds as there are nodes are enough. -/
theorem partialEnumerate_size (h : TreeInv c t) (ref : Name) :
    partialEnumerate c t sel (2 * t.size + 1) ref = some (pre c t sel (maxDepth + 1 - ref.length) ref) := by
  obtain ⟨f0, hf, h1⟩ := partialEnumerate_pre (sel := sel) h ref
  apply h1
  by_cases hd : ref.length ≤ maxDepth
  · have := preAll_length h (maxDepth + 1 - ref.length) (n := ref) (by omega)
    omega
  · have : maxDepth + 1 - ref.length = 0 := by omega
    rw [this] at hf
    have : (preAll c t 0 ref).length = 0 := rfl
    omega

end

theorem lpmEntry_eq {c : Cfg T} {t : Tree T} (h : TreeInv c t) (sel : Name → Nte T → Bool) {n : Name} (hn : (t.find c.ch n).isSome) :
    lpmEntry c t sel (n.length + 1) (some n) = some (lpm c t sel n) := by
  obtain ⟨r, h1, h2⟩ := lpmEntry_spec h sel (n.length + 1) hn (by omega)
  rw [h1, h2.unique (lpm_spec c t sel n)]

theorem lpmPit_eq {c : Cfg T} {t : Tree T} (h : TreeInv c t) (sel : Name → Nte T → Bool) {pitName nte : Name}
    (hn : (t.find c.ch nte).isSome) (hp : nte <+: pitName) : lpmPit c t sel pitName nte = some (lpm c t sel pitName) := by
  obtain ⟨r, h1, h2⟩ := lpmPit_spec h sel hn hp
  rw [h1, h2.unique (lpm_spec c t sel pitName)]

theorem findAllMatches_spec {c : Cfg T} {t : Tree T} (h : TreeInv c t) (sel : Name → Nte T → Bool) (name : Name) :
    ∃ l, findAllMatches c t sel name = some l ∧ (∀ m, m ∈ l ↔ m <+: name ∧ m.length ≤ maxDepth ∧ Acc c t sel m) ∧
      l.Pairwise (fun a b => b.length < a.length) := by
  have hl := lpm_spec c t sel name
  unfold findAllMatches
  cases hr : lpm c t sel name with
  | none =>
    rw [hr] at hl
    refine ⟨[], rfl, ?_, by simp⟩
    intro m
    simp only [List.not_mem_nil, false_iff]
    rintro ⟨h1, h2, h3⟩
    exact hl m h1 h2 h3
  | some n =>
    rw [hr] at hl
    obtain ⟨a, b, d, f⟩ := hl
    have d' := d
    obtain ⟨e, he, -⟩ := d
    obtain ⟨l, h1, h2, h3⟩ := climb_spec h sel (n.length + 1) (n := n) (by simp [he]) (by omega)
    refine ⟨l, h1, ?_, h3⟩
    intro m
    rw [h2]
    constructor
    · rintro ⟨h4, h5⟩
      exact ⟨h4.trans a, by have := h4.length_le; omega, h5⟩
    · rintro ⟨h4, h5, h6⟩
      refine ⟨?_, h6⟩
      have := f m h4 h5 h6
      exact List.prefix_of_prefix_length_le h4 a this

end Verif.Nt
