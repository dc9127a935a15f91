import Verif.Nt.Find

/-! Name-tree properties C11–C14. -/
namespace Verif.Nt

open List

variable {α T : Type}

/-! ### C11: the hash table is a map, whatever the hash function and the resizing options -/

theorem hrun_spec (ch : Component → Nat) (o : Options) (ops : List (HOp α)) : ∀ (t : Hashtable α) (f : Name → Option α), HtInv ch t →
    (∀ n, t.find ch n = f n) → ∀ t', hrun ch o t ops = some t' → HtInv ch t' ∧ ∀ n, t'.find ch n = ops.foldl HOp.spec f n := by
  induction ops with
  | nil => intro t f h hf t' ht; cases ht; exact ⟨h, hf⟩
  | cons op ops ih =>
    intro t f h hf t' ht
    rw [hrun] at ht
    cases hop : op.run ch o t with
    | none => simp [hop] at ht
    | some t1 =>
      simp only [hop] at ht
      rw [List.foldl_cons]
      cases op with
      | insert n a =>
        simp only [HOp.run, Option.some.injEq] at hop
        subst hop
        refine ih _ _ (insert_inv h n a) ?_ t' ht
        intro m
        rw [insert_find h]
        simp only [HOp.spec, hf]
      | erase n =>
        refine ih _ _ (erase_inv h hop) ?_ t' ht
        intro m
        rw [erase_find h hop]
        simp only [HOp.spec, hf]

/-- C11. For every component hash function, every resizing policy and every history of insertions and erasures: `find`
returns exactly what a map would hold, `size` counts its keys, the stored nodes are listed once each, and the next insertion
reports `isNew` exactly when the name is absent. -/
theorem C11_hashtable_is_map (ch : Component → Nat) (o : Options) (ops : List (HOp α)) (t : Hashtable α)
    (h : hrun ch o (Hashtable.init o) ops = some t) :
    (∀ n, t.find ch n = hspec ops n) ∧
    (∃ keys : List Name, keys.Nodup ∧ keys.length = t.size ∧ ∀ n, n ∈ keys ↔ (hspec ops n).isSome) ∧
    (∀ n a, (t.insert ch o n a).2 = (hspec ops n).isNone) := by
  obtain ⟨h1, h2⟩ := hrun_spec ch o ops _ (fun _ => none) (init_inv ch o) (init_find ch o) t h
  refine ⟨h2, ⟨t.buckets.flatten.map (·.name), h1.nodup, by rw [List.length_map, h1.size], ?_⟩, ?_⟩
  · intro n
    have h2n : t.find ch n = hspec ops n := h2 n
    rw [← h2n, Option.isSome_iff_exists, List.mem_map]
    constructor
    · rintro ⟨k, hk, hkn⟩; exact ⟨k.entry, (find_iff h1 n _).2 ⟨k, hk, hkn, rfl⟩⟩
    · rintro ⟨e, he⟩
      obtain ⟨k, hk, hkn, -⟩ := (find_iff h1 n _).1 he
      exact ⟨k, hk, hkn⟩
  · intro n a
    have h2n : t.find ch n = hspec ops n := h2 n
    rw [insert_isNew h1, h2n]

/-- C11. Nothing goes wrong as long as only existing nodes are erased. -/
theorem C11_no_fault (ch : Component → Nat) (o : Options) (ops : List (HOp α)) (op : HOp α) (t : Hashtable α)
    (h : hrun ch o (Hashtable.init o) ops = some t) (hok : op.ok (hspec ops)) : ∃ t', op.run ch o t = some t' := by
  obtain ⟨h1, h2⟩ := hrun_spec ch o ops _ (fun _ => none) (init_inv ch o) (init_find ch o) t h
  cases op with
  | insert n a => exact ⟨_, rfl⟩
  | erase n =>
    have h2n : t.find ch n = hspec ops n := h2 n
    simp only [HOp.ok, ← h2n] at hok
    obtain ⟨e, he⟩ := Option.isSome_iff_exists.1 hok
    obtain ⟨t', h3, -⟩ := erase_spec (o := o) h1 n he
    exact ⟨t', h3⟩

section Examples
abbrev exc (i : UInt8) : Component := ⟨8, [i]⟩
/-- every name collides -/
abbrev exHash : Component → Nat := fun _ => 0
abbrev exOpts : Options := Options.default 1 (by decide)
abbrev exOps : List (HOp Nat) :=
  [.insert [exc 1] 10, .insert [exc 2] 20, .insert [exc 1, exc 2] 12, .insert [exc 1] 99, .erase [exc 2], .insert [] 0, .erase [exc 1, exc 2]]

/-- Colliding names, three expansions and a shrink: the history runs through and keeps the right values. -/
example : (hrun exHash exOpts (Hashtable.init exOpts) exOps).any
    (fun t => t.find exHash [exc 1] == some 10 && t.find exHash [exc 2] == none && t.find exHash [] == some 0 && t.size == 2 &&
      t.buckets.length == 8) = true := by decide +kernel
end Examples

/-! ### C12: ancestors and empty leaves -/

theorem trun_inv {c : Cfg T} (ops : List (TOp T)) : ∀ {t t' : Tree T}, TreeInv c t → trun c t ops = some t' → TreeInv c t' := by
  induction ops with
  | nil => intro t t' h ht; cases ht; exact h
  | cons op ops ih =>
    intro t t' h ht
    rw [trun] at ht
    cases hop : op.run c t with
    | none => simp [hop] at ht
    | some t1 =>
      simp only [hop] at ht
      refine ih ?_ ht
      cases op with
      | lookup n k =>
        simp only [TOp.run] at hop
        by_cases hk : k ≤ n.length ∧ k ≤ maxDepth
        · obtain ⟨t2, h1, h2, -⟩ := lookup_spec h hk.1 hk.2
          rw [h1] at hop; cases hop; exact h2
        · rw [lookup, if_neg hk] at hop; simp at hop
      | setTbl n f =>
        simp only [TOp.run] at hop
        cases hs : t.find c.ch n with
        | none => simp [setTbl, hs] at hop
        | some e =>
          obtain ⟨t2, h1, h2, -⟩ := setTbl_spec h (n := n) (by simp [hs]) f
          rw [h1] at hop; cases hop; exact h2
      | eraseIfEmpty n a =>
        simp only [TOp.run, eraseIfEmpty, Option.map_eq_some_iff] at hop
        obtain ⟨⟨t2, k⟩, h1, rfl⟩ := hop
        cases hs : t.find c.ch n with
        | none => rw [eraseLoop] at h1; simp [hs] at h1
        | some e =>
          cases a with
          | true =>
            obtain ⟨t3, k3, h2, h3, -⟩ := eraseLoop_spec (n.length + 2) 0 h (n := n) (by simp [hs]) (by omega)
            rw [h1] at h2; cases h2; exact h3
          | false =>
            obtain ⟨t3, k3, h2, h3, -⟩ := eraseLoop_one h hs (n.length + 1)
            rw [h1] at h2; cases h2; exact h3

theorem Reachable.inv {c : Cfg T} {t : Tree T} (h : Reachable c t) : TreeInv c t := by
  obtain ⟨ops, h⟩ := h
  exact trun_inv ops (init_treeInv c) h

/-- C12. In every reachable tree: a stored node's prefixes are all stored, the root has no parent, the parent of any other
node is the node of the prefix one component shorter, and the children of a node are, once each, exactly the stored names one
component longer. No node is deeper than the limit. -/
theorem C12_structure (c : Cfg T) (t : Tree T) (h : Reachable c t) (n : Name) (e : Nte T) (hn : t.find c.ch n = some e) :
    (∀ m, m <+: n → (t.find c.ch m).isSome) ∧
    e.parent = (if n = [] then none else some n.dropLast) ∧
    e.children.Nodup ∧ (∀ k, k ∈ e.children ↔ (t.find c.ch k).isSome ∧ k ≠ [] ∧ k.dropLast = n) ∧
    n.length ≤ maxDepth := by
  have hi := h.inv
  refine ⟨fun m hm => stored_prefix hi hm (by simp [hn]), ?_, (hi.kids n e hn).1, ?_, hi.depth n e hn⟩
  · split
    · rename_i h0; subst h0; exact hi.root e hn
    · rename_i h0; exact (hi.par n e hn h0).1
  · intro k
    constructor
    · intro hk
      obtain ⟨a, b, ke, hke⟩ := (hi.kids n e hn).2 k hk
      exact ⟨by simp [hke], a, b⟩
    · rintro ⟨a, b, rfl⟩
      obtain ⟨ke, hke⟩ := Option.isSome_iff_exists.1 a
      obtain ⟨-, p, hp, hm⟩ := hi.par k ke hke b
      rw [hn] at hp; cases hp
      exact hm

/-- C12. `lookup(name, k)` creates exactly the missing prefixes, without table entries, and disturbs nothing else. -/
theorem C12_lookup (c : Cfg T) (t : Tree T) (h : Reachable c t) (name : Name) (k : Nat) (h1 : k ≤ name.length) (h2 : k ≤ maxDepth) :
    ∃ t', lookup c t name k = some t' ∧ ∀ m, tblOf c t' m =
      if m <+: name.take k then some ((tblOf c t m).getD c.empty) else tblOf c t m := by
  obtain ⟨t', e, -, f⟩ := lookup_spec h.inv h1 h2
  exact ⟨t', e, f⟩

/-- C12. `eraseIfEmpty(node)` removes exactly the chain of nodes, from `node` upwards, that hold no table entries and have
no descendants outside the chain; without `canEraseAncestors` at most the node itself. -/
theorem C12_eraseIfEmpty (c : Cfg T) (t : Tree T) (h : Reachable c t) (n : Name) (hn : (tblOf c t n).isSome) :
    (∃ t' k, eraseIfEmpty c t n true = some (t', k) ∧
      ∀ m, (Removed c (tblOf c t) n m → tblOf c t' m = none) ∧ (¬ Removed c (tblOf c t) n m → tblOf c t' m = tblOf c t m)) ∧
    (∃ t' k, eraseIfEmpty c t n false = some (t', k) ∧
      ∀ m, (m = n ∧ Removed c (tblOf c t) n n → tblOf c t' m = none) ∧
        (¬ (m = n ∧ Removed c (tblOf c t) n n) → tblOf c t' m = tblOf c t m)) := by
  have hi := h.inv
  rw [tblOf_isSome] at hn
  constructor
  · obtain ⟨t', k, h1, -, h3⟩ := eraseLoop_spec (n.length + 2) 0 hi hn (by omega)
    exact ⟨t', k, h1, h3⟩
  · obtain ⟨e, he⟩ := Option.isSome_iff_exists.1 hn
    obtain ⟨t', k, h1, -, h3⟩ := eraseLoop_one hi he (n.length + 1)
    refine ⟨t', k, h1, ?_⟩
    have hr : Removed c (tblOf c t) n n ↔ e.isEmpty c = true := by
      simp only [Nte.isEmpty, Bool.and_eq_true, List.isEmpty_iff, Bool.not_eq_true']
      constructor
      · rintro ⟨-, hr⟩
        refine ⟨?_, (hr n e.tbl (by simp [tblOf, he]) (List.prefix_refl _)).2⟩
        cases hk : e.children with
        | nil => rfl
        | cons x xs =>
          obtain ⟨a, b, ke, hke⟩ := (hi.kids n e he).2 x (by simp [hk])
          have hnx : n <+: x := (dropLast_prefix_iff a).2 (.inr (by rw [b]; exact List.prefix_refl _))
          obtain ⟨h5, -⟩ := hr x ke.tbl (by simp [tblOf, hke]) hnx
          have := h5.length_le
          have := congrArg List.length b
          have := List.length_pos_iff.2 a
          simp at *; omega
      · rintro ⟨h4, h5⟩
        refine ⟨List.prefix_refl _, ?_⟩
        intro m' x hx hp
        have : m' = n := by
          by_cases hne : m' = n
          · exact hne
          · have : (t.find c.ch m').isSome := by rw [← tblOf_isSome, hx]; rfl
            obtain ⟨k, hk, -⟩ := child_of_ext hi he this hp hne
            rw [h4] at hk; simp at hk
        subst this
        have : x = e.tbl := by simpa [tblOf, he] using hx.symm
        subst this
        exact ⟨List.prefix_refl _, h5⟩
    intro m
    rw [h3, hr]
    constructor
    · intro hh; rw [if_pos hh]
    · intro hh; rw [if_neg hh]

/-- C12. No legal operation on a reachable tree fails (no dangling parent or child pointer is followed). -/
theorem C12_no_fault (c : Cfg T) (t : Tree T) (h : Reachable c t) (op : TOp T) (hok : op.ok c t) : ∃ t', op.run c t = some t' := by
  have hi := h.inv
  cases op with
  | lookup n k =>
    obtain ⟨t', e, -⟩ := lookup_spec hi hok.1 hok.2
    exact ⟨t', e⟩
  | setTbl n f =>
    have hok : (tblOf c t n).isSome := hok
    rw [tblOf_isSome] at hok
    obtain ⟨t', e, -⟩ := setTbl_spec hi hok f
    exact ⟨t', e⟩
  | eraseIfEmpty n a =>
    have hok : (tblOf c t n).isSome := hok
    obtain ⟨⟨t1, k1, h1, -⟩, ⟨t2, k2, h2, -⟩⟩ := C12_eraseIfEmpty c t h n hok
    cases a with
    | true => exact ⟨t1, by simp only [TOp.run, h1]; rfl⟩
    | false => exact ⟨t2, by simp only [TOp.run, h2]; rfl⟩

section Examples
abbrev exCfg : Cfg Bool := { ch := fun c => c.typ, opts := exOpts, has := id, empty := false, has_empty := rfl }
abbrev exTOps : List (TOp Bool) :=
  [.lookup [exc 1, exc 2, exc 3] 3, .setTbl [exc 1] (fun _ => true), .lookup [exc 4] 1, .setTbl [exc 4] (fun _ => true)]

/-- /1 and /4 hold table entries; erasing from /1/2/3 removes /1/2/3 and /1/2 but stops at /1. -/
example : (trun exCfg (Hashtable.init exOpts) (exTOps ++ [.eraseIfEmpty [exc 1, exc 2, exc 3] true])).any
    (fun t => tblOf exCfg t [exc 1, exc 2, exc 3] == none && tblOf exCfg t [exc 1, exc 2] == none &&
      tblOf exCfg t [exc 1] == some true && tblOf exCfg t [] == some false && tblOf exCfg t [exc 4] == some true) = true := by
  decide +kernel
end Examples

/-! ### C13: longest prefix match -/

/-- C13. `findLongestPrefixMatch(name, selector)` is the longest stored prefix, within the depth limit, that the selector
accepts. -/
theorem C13_lpm (c : Cfg T) (t : Tree T) (sel : Name → Nte T → Bool) (name : Name) :
    IsLongest (Acc c t sel) name (lpm c t sel name) := lpm_spec c t sel name

/-- C13. The overload starting at a name-tree entry gives the same answer. -/
theorem C13_lpm_entry (c : Cfg T) (t : Tree T) (h : Reachable c t) (sel : Name → Nte T → Bool) (n : Name)
    (hn : (t.find c.ch n).isSome) : lpmEntry c t sel (n.length + 1) (some n) = some (lpm c t sel n) := by
  obtain ⟨r, h1, h2⟩ := lpmEntry_spec h.inv sel (n.length + 1) hn (by omega)
  rw [h1, h2.unique (lpm_spec c t sel n)]

/-- C13. The overload starting at a PIT entry, attached to any stored prefix of its name (the name may end in a digest or be
longer than the depth limit), gives the same answer as a search by the full Interest name. -/
theorem C13_lpm_pit (c : Cfg T) (t : Tree T) (h : Reachable c t) (sel : Name → Nte T → Bool) (pitName nte : Name)
    (hn : (t.find c.ch nte).isSome) (hp : nte <+: pitName) : lpmPit c t sel pitName nte = some (lpm c t sel pitName) := by
  obtain ⟨r, h1, h2⟩ := lpmPit_spec h.inv sel hn hp
  rw [h1, h2.unique (lpm_spec c t sel pitName)]

/-- The deepest accepted prefix wins over an accepted ancestor; a PIT entry attached one level up still sees the deeper node. -/
example : (trun exCfg (Hashtable.init exOpts) exTOps).any (fun t =>
    lpm exCfg t (fun _ e => e.tbl) [exc 1, exc 2, exc 9] == some [exc 1] &&
    lpm exCfg t (fun _ _ => true) [exc 1, exc 2, exc 9] == some [exc 1, exc 2] &&
    lpm exCfg t (fun _ e => e.tbl) [exc 7] == none &&
    lpmPit exCfg t (fun _ _ => true) [exc 1, exc 2, exc 3] [exc 1, exc 2] == some (some [exc 1, exc 2, exc 3])) = true := by
  decide +kernel

/-! ### C14: enumerations -/

/-- C14. A full enumeration visits every accepted node exactly once (and nothing else), and ends after at most `size` visits. -/
theorem C14_full (c : Cfg T) (t : Tree T) (h : Reachable c t) (sel : Name → Nte T → Bool) (fuel : Nat) (hf : t.size < fuel) :
    (fullFrom c.ch t sel fuel none).Nodup ∧ (∀ m, m ∈ fullFrom c.ch t sel fuel none ↔ Acc c t sel m) ∧
    (fullFrom c.ch t sel fuel none).length ≤ t.size := by
  have hi := h.inv.ht
  rw [hi.size] at hf ⊢
  rw [fullEnumerate_spec hi sel fuel hf]
  refine ⟨?_, ?_, ?_⟩
  · exact List.Nodup.sublist (List.Sublist.map _ List.filter_sublist) hi.nodup
  · intro m
    unfold Acc
    simp only [find_iff hi, List.mem_map, List.mem_filter]
    constructor
    · rintro ⟨n, ⟨h1, h2⟩, rfl⟩; exact ⟨n.entry, ⟨n, h1, rfl, rfl⟩, h2⟩
    · rintro ⟨e, ⟨n, h1, rfl, rfl⟩, h2⟩; exact ⟨n, ⟨h1, h2⟩, rfl⟩
  · rw [List.length_map]; exact List.length_filter_le _ _

/-- C14. A partial enumeration terminates (within two rounds per stored node) and visits, once each, exactly the nodes at or
below the start that want to be visited and whose ancestors from the start on all want their children visited. -/
theorem C14_partial_enumeration (c : Cfg T) (t : Tree T) (h : Reachable c t) (sel : Name → Nte T → Bool × Bool) (start : Name) :
    ∃ l, partialEnumerate c t sel (2 * t.size + 1) start = some l ∧ l.Nodup ∧
      ∀ m, m ∈ l ↔ start <+: m ∧ WantSelf c t sel m ∧ ∀ a, start <+: a → a <+: m → a ≠ m → WantChildren c t sel a := by
  refine ⟨_, partialEnumerate_size h.inv start, ?_⟩
  by_cases hd : start.length ≤ maxDepth
  · exact ⟨nodup_pre h.inv _ (by omega), mem_pre h.inv _ (by omega)⟩
  · have : maxDepth + 1 - start.length = 0 := by omega
    rw [this]
    refine ⟨by simp [pre], ?_⟩
    intro m
    simp only [pre, List.not_mem_nil, false_iff]
    rintro ⟨h1, ⟨e, he, -⟩, -⟩
    have := h.inv.depth m e he
    have := h1.length_le
    omega

/-- C14. `findAllMatches(name, selector)` visits every accepted prefix within the depth limit, longest first. -/
theorem C14_all_matches (c : Cfg T) (t : Tree T) (h : Reachable c t) (sel : Name → Nte T → Bool) (name : Name) :
    ∃ l, findAllMatches c t sel name = some l ∧ (∀ m, m ∈ l ↔ m <+: name ∧ m.length ≤ maxDepth ∧ Acc c t sel m) ∧
      l.Pairwise (fun a b => b.length < a.length) := findAllMatches_spec h.inv sel name

/-- The example tree enumerated in full, and from /1 without the children of /1/2. -/
example : (trun exCfg (Hashtable.init exOpts) exTOps).any (fun t =>
    (fullFrom exCfg.ch t (fun _ e => e.tbl) 10 none).length == 2 &&
    partialEnumerate exCfg t (fun n _ => (true, n.length < 2)) 30 [exc 1] == some [[exc 1], [exc 1, exc 2]] &&
    findAllMatches exCfg t (fun _ _ => true) [exc 1, exc 2, exc 3] ==
      some [[exc 1, exc 2, exc 3], [exc 1, exc 2], [exc 1], []]) = true := by
  decide +kernel

end Verif.Nt
