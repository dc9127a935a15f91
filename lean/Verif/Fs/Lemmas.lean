import Verif.Fs.Spec

/-! Lemmas about reading options. -/
namespace Verif.Fs
open Verif.Cf (Node)

theorem ite_eq_some {α : Type} {p : Prop} [Decidable p] {a b : Option α} {x : α} :
    (if p then a else b) = some x ↔ (p ∧ a = some x) ∨ (¬ p ∧ b = some x) := by
  by_cases hp : p
  · rw [if_pos hp]; simp [hp]
  · rw [if_neg hp]; simp [hp]

/-! ### Options -/

theorem readOpts_append {α : Type} (set : String → Node → α → Option α) (a b : List (String × Node)) (o : α) :
    readOpts set (a ++ b) o = (readOpts set a o).bind (readOpts set b) := by
  induction a generalizing o with
  | nil => rfl
  | cons x a ih =>
    simp only [List.cons_append, readOpts]
    cases set x.1 x.2 o with
    | none => rfl
    | some o => exact ih o

theorem readOpts_isSome {α : Type} {set : String → Node → α → Option α} {ok : String × Node → Prop}
    (h : ∀ y o, (∃ o', set y.1 y.2 o = some o') ↔ ok y) : ∀ (l : List (String × Node)) (o : α), (∃ o', readOpts set l o = some o') ↔ ∀ y ∈ l, ok y
  | [], o => by simp [readOpts]
  | y :: l, o => by
    simp only [readOpts, List.mem_cons, forall_eq_or_imp, ← h y o]
    cases hs : set y.1 y.2 o with
    | none => simp
    | some o' =>
      simp only [Option.some.injEq, exists_eq', true_and]
      exact readOpts_isSome h l o'

theorem readOpts_keep {α β : Type} {set : String → Node → α → Option α} {g : α → β} {key : String}
    (h : ∀ k x o o', set k x o = some o' → k ≠ key → g o' = g o) :
    ∀ (l : List (String × Node)) (o o' : α), readOpts set l o = some o' → Lacks l key → g o' = g o
  | [], o, o', hr, _ => by cases hr; rfl
  | y :: l, o, o', hr, hl => by
    simp only [readOpts] at hr
    cases hs : set y.1 y.2 o with
    | none => rw [hs] at hr; cases hr
    | some o1 =>
      rw [hs] at hr
      rw [readOpts_keep h l o1 o' hr (fun z hz => hl z (List.mem_cons_of_mem _ hz))]
      exact h _ _ _ _ hs (hl y List.mem_cons_self)

theorem readOpts_all {α : Type} {set : String → Node → α → Option α} {P : α → Prop} (h : ∀ k x o o', set k x o = some o' → P o → P o') :
    ∀ (l : List (String × Node)) (o o' : α), readOpts set l o = some o' → P o → P o'
  | [], o, o', hr, hp => by cases hr; exact hp
  | y :: l, o, o', hr, hp => by
    simp only [readOpts] at hr
    cases hs : set y.1 y.2 o with
    | none => rw [hs] at hr; cases hr
    | some o1 => rw [hs] at hr; exact readOpts_all h l o1 o' hr (h _ _ _ _ hs hp)

theorem lacks_or_last (l : List (String × Node)) (key : String) : Lacks l key ∨ ∃ x, Last l key x := by
  induction l with
  | nil => left; intro y hy; cases hy
  | cons y l ih =>
    rcases ih with h | ⟨x, a, b, rfl, h⟩
    · by_cases hk : y.1 = key
      · exact Or.inr ⟨y.2, [], l, by rw [← hk]; rfl, h⟩
      · left
        intro z hz
        rcases List.mem_cons.1 hz with rfl | hz
        · exact hk
        · exact h z hz
    · exact Or.inr ⟨x, y :: a, b, rfl, h⟩

theorem readOpts_says {α β : Type} {set : String → Node → α → Option α} (g : α → β) (key : String) {reads : Node → β → Prop}
    (h1 : ∀ k x o o', set k x o = some o' → k ≠ key → g o' = g o) (h2 : ∀ x o o', set key x o = some o' → reads x (g o'))
    {l : List (String × Node)} {o o' : α} (hr : readOpts set l o = some o') {d : β} (hd : g o = d) : Says l key d reads (g o') := by
  subst hd
  rcases lacks_or_last l key with h | ⟨x, a, b, rfl, h⟩
  · exact Or.inl ⟨h, readOpts_keep h1 l o o' hr h⟩
  · refine Or.inr ⟨x, ⟨a, b, rfl, h⟩, ?_⟩
    rw [readOpts_append] at hr
    obtain ⟨o1, -, hr⟩ := Option.bind_eq_some_iff.1 hr
    simp only [readOpts] at hr
    cases hs : set key x o1 with
    | none => rw [hs] at hr; cases hr
    | some o2 =>
      rw [hs] at hr
      rw [readOpts_keep h1 b o2 o' hr h]
      exact h2 _ _ _ hs

theorem last_unique {l : List (String × Node)} {key : String} {x y : Node} (hx : Last l key x) (hy : Last l key y) : x = y := by
  obtain ⟨a, b, rfl, h⟩ := hx
  obtain ⟨c, d, e, h'⟩ := hy
  rcases List.append_eq_append_iff.1 e with ⟨m, -, e1⟩ | ⟨m, -, e1⟩
  · cases m with
    | nil => rw [List.nil_append] at e1; injection e1 with e2 _; injection e2
    | cons z m =>
      rw [List.cons_append] at e1; injection e1 with _ e2
      exact absurd rfl (h (key, y) (by rw [e2]; simp))
  · cases m with
    | nil => rw [List.nil_append] at e1; injection e1 with e2 _; injection e2 with _ e3; exact e3.symm
    | cons z m =>
      rw [List.cons_append] at e1; injection e1 with _ e2
      exact absurd rfl (h' (key, x) (by rw [e2]; simp))

theorem Last.not_lacks {l : List (String × Node)} {key : String} {x : Node} (h : Last l key x) : ¬ Lacks l key := by
  obtain ⟨a, b, rfl, -⟩ := h
  intro h
  exact h (key, x) (by simp) rfl

theorem Says.unique {α : Type} {l : List (String × Node)} {key : String} {d : α} {reads : Node → α → Prop} {v w : α} (hf : ∀ x a b, reads x a → reads x b → a = b)
    (h1 : Says l key d reads v) (h2 : Says l key d reads w) : v = w := by
  rcases h1 with ⟨h1, rfl⟩ | ⟨x, h1, hx⟩
  · rcases h2 with ⟨-, rfl⟩ | ⟨y, h2, -⟩
    · rfl
    · exact absurd h1 h2.not_lacks
  · rcases h2 with ⟨h2, -⟩ | ⟨y, h2, hy⟩
    · exact absurd h2 h1.not_lacks
    · cases last_unique h1 h2; exact hf x v w hx hy

theorem YesNo.unique {x : Node} {a b : Bool} (h1 : YesNo x a) (h2 : YesNo x b) : a = b := by
  rcases h1 with ⟨h, rfl⟩ | ⟨h, rfl⟩ <;> rcases h2 with ⟨h', rfl⟩ | ⟨h', rfl⟩
  · rfl
  · rw [h] at h'; exact absurd h' (by decide)
  · rw [h] at h'; exact absurd h' (by decide)
  · rfl

theorem says_yesNo {l : List (String × Node)} {key : String} {d v w : Bool} (h1 : Says l key d YesNo v) (h2 : Says l key d YesNo w) : v = w :=
  Says.unique (reads := YesNo) (fun _ _ _ a b => YesNo.unique a b) h1 h2

/-! ### Values -/

theorem yesNo_iff (x : Node) (b : Bool) : yesNo x = some b ↔ YesNo x b := by
  unfold yesNo YesNo
  by_cases h1 : x.value = "yes"
  · rw [if_pos h1, h1]
    constructor
    · intro h; cases h; exact Or.inl ⟨rfl, rfl⟩
    · rintro (⟨-, rfl⟩ | ⟨h, -⟩)
      · rfl
      · exact absurd h (by decide)
  · rw [if_neg h1]
    by_cases h2 : x.value = "no"
    · rw [if_pos h2]
      constructor
      · intro h; cases h; exact Or.inr ⟨h2, rfl⟩
      · rintro (⟨h, -⟩ | ⟨-, rfl⟩)
        · exact absurd h h1
        · rfl
    · rw [if_neg h2]
      constructor
      · intro h; cases h
      · rintro (⟨h, -⟩ | ⟨h, -⟩)
        · exact absurd h h1
        · exact absurd h h2

theorem u16_iff (e : Env) (x : Node) (v : Nat) : u16 e x = some v ↔ Num e 65535 x v := Iff.rfl
theorem u32_iff (e : Env) (x : Node) (v : Nat) : u32 e x = some v ↔ Num e 4294967295 x v := Iff.rfl

theorem mtu_iff (e : Env) (x : Node) (v : Nat) : mtu e x = some v ↔ Mtu e x v := by
  unfold mtu Mtu
  show (match e.num 18446744073709551615 x.value with | none => none | some m => if m < 64 ∨ m > 8800 then none else some m) = some v ↔ _
  cases e.num 18446744073709551615 x.value with
  | none => simp
  | some m =>
    dsimp only
    by_cases h : m < 64 ∨ m > 8800
    · rw [if_pos h]
      constructor
      · intro h; cases h
      · rintro ⟨h1, h2, h3⟩; cases h1; omega
    · rw [if_neg h]
      constructor
      · intro h; cases h; exact ⟨rfl, by omega, by omega⟩
      · rintro ⟨h1, -⟩; exact h1

theorem mcastAddr_iff (parse : String → Option (Nat × Bool)) (x : Node) (a : Nat) : mcastAddr parse x = some a ↔ Group parse x a := by
  unfold mcastAddr Group
  cases parse x.value with
  | none => simp
  | some p => obtain ⟨b, m⟩ := p; cases m <;> simp

theorem star_iff (k : String) : k.toList = Net.star ↔ k = "*" := by
  have : Net.star = "*".toList := by decide
  rw [this, String.toList_inj]

theorem rules_iff (e : Env) (kind : Net.Kind) (x : Node) (l : List (List Char)) : rules e kind x = some l ↔ ListOf e kind x l := by
  unfold rules ListOf
  generalize x.kids = ks
  induction ks generalizing l with
  | nil =>
    simp only [List.map_nil, Net.parseList, List.not_mem_nil, false_imp_iff, implies_true, true_and, Option.some.injEq]
    exact eq_comm
  | cons y ks ih =>
    simp only [List.map_cons, Net.parseList, List.mem_cons, forall_eq_or_imp]
    by_cases hs : y.1 = "*"
    · rw [if_pos ((star_iff _).2 hs), if_pos hs, (star_iff _).2 hs, Option.map_eq_some_iff]
      constructor
      · rintro ⟨r, h, rfl⟩
        obtain ⟨h1, rfl⟩ := (ih r).1 h
        exact ⟨⟨Or.inl hs, h1⟩, rfl⟩
      · rintro ⟨⟨-, h1⟩, rfl⟩
        exact ⟨_, (ih _).2 ⟨h1, rfl⟩, rfl⟩
    · rw [if_neg (fun h => hs ((star_iff _).1 h)), if_neg hs]
      by_cases hr : Net.RuleOk e.lib kind y.1.toList y.2.value.toList
      · have := (Net.ruleOk_iff ..).1 hr
        rw [if_pos (by rw [this.1, this.2]; rfl), Option.map_eq_some_iff]
        constructor
        · rintro ⟨r, h, rfl⟩
          obtain ⟨h1, rfl⟩ := (ih r).1 h
          exact ⟨⟨Or.inr hr, h1⟩, rfl⟩
        · rintro ⟨⟨-, h1⟩, rfl⟩
          exact ⟨_, (ih _).2 ⟨h1, rfl⟩, rfl⟩
      · rw [if_neg]
        · constructor
          · intro h; cases h
          · rintro ⟨⟨h, -⟩, -⟩
            rcases h with h | h
            · exact absurd h hs
            · exact absurd h hr
        · intro h
          rw [Bool.and_eq_true] at h
          exact hr ((Net.ruleOk_iff ..).2 h)

/-! ### First -/

theorem child_first {n : Node} {key : String} {x : Node} : n.child key = some x ↔ First n.kids key x := by
  unfold Node.child First
  rw [Option.map_eq_some_iff]
  constructor
  · rintro ⟨⟨k, y⟩, h, rfl⟩
    obtain ⟨h1, a, b, h2, h3⟩ := List.find?_eq_some_iff_append.1 h
    have : k = key := by simpa using h1
    subst this
    exact ⟨a, b, h2, fun z hz => by simpa using h3 z hz⟩
  · rintro ⟨a, b, h, h'⟩
    refine ⟨(key, x), List.find?_eq_some_iff_append.2 ⟨by simp, a, b, h, fun z hz => by simpa using h' z hz⟩, rfl⟩

theorem child_lacks {n : Node} {key : String} : n.child key = none ↔ Lacks n.kids key := by
  unfold Node.child Lacks
  rw [Option.map_eq_none_iff, List.find?_eq_none]
  simp

theorem first_unique {l : List (String × Node)} {key : String} {x y : Node} (hx : First l key x) (hy : First l key y) : x = y := by
  have h1 : (Node.mk "" l).child key = some x := child_first.2 hx
  have h2 : (Node.mk "" l).child key = some y := child_first.2 hy
  rw [h1] at h2; cases h2; rfl

end Verif.Fs
