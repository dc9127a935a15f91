import Verif.Mgmt.Net

/-
C64: subnet rules match exactly the addresses of the subnet; lists.
-/
namespace Verif.Net

/-! ### Specification -/

/-- Bit `i` of an address, counted from the first. -/
def bit (b : List Byte) (i : Nat) : Bool := (b[i / 8]?.map (fun x => x.val.testBit (7 - i % 8))).getD false

def sameFamily : Addr → Addr → Prop
  | .v4 _, .v4 _ => True
  | .v6 _ _, .v6 _ _ => True
  | _, _ => False

/-- The first `len` bits agree. -/
def agree (a b : List Byte) (len : Nat) : Prop := ∀ i, i < len → bit a i = bit b i

/-! ### Masks -/

/-- The byte with the first `c` bits set. -/
def top (c : Nat) : Byte := [0, 128, 192, 224, 240, 248, 252, 254][c]?.getD 255

theorem maskBytes_eq (size len : Nat) : maskBytes size len = (List.range size).map (fun i => top (len - 8 * i)) := by
  unfold maskBytes
  induction len with
  | zero =>
    simp only [List.range_zero, List.foldl_nil, Nat.zero_sub]
    apply List.ext_getElem
    · simp
    · intro i h1 h2
      simp
      rfl
  | succ k ih =>
    rw [List.range_succ, List.foldl_append, ih]
    simp only [List.foldl_cons, List.foldl_nil]
    apply List.ext_getElem
    · simp [setBit]
    · intro i h1 h2
      have hset : ∀ c, c < 8 → Fin.ofNat 256 ((top c).val ||| (1 <<< (7 - c))) = top (c + 1) := by decide
      have hbig : ∀ c, 8 ≤ c → top c = 255 := by
        intro c hc
        unfold top
        rw [List.getElem?_eq_none (by simpa using hc)]
        rfl
      simp only [setBit, List.getElem_modify, List.getElem_map, List.getElem_range]
      by_cases hi : k / 8 = i
      · rw [if_pos hi]
        have h1 : k - 8 * i = k % 8 := by omega
        have h2 : k + 1 - 8 * i = k % 8 + 1 := by omega
        rw [h1, h2]
        exact hset _ (Nat.mod_lt _ (by omega))
      · rw [if_neg hi]
        by_cases hlt : i < k / 8
        · rw [hbig _ (by omega), hbig _ (by omega)]
        · have h1 : k - 8 * i = 0 := by omega
          have h2 : k + 1 - 8 * i = 0 := by omega
          rw [h1, h2]

theorem mask_cons (size len : Nat) : maskBytes (size + 1) len = top len :: maskBytes size (len - 8) := by
  rw [maskBytes_eq, maskBytes_eq, List.range_succ_eq_map, List.map_cons, List.map_map]
  congr 1
  apply List.map_congr_left
  intro i _
  simp only [Function.comp]
  congr 1
  omega

theorem mask_nil (len : Nat) : maskBytes 0 len = [] := by rw [maskBytes_eq]; rfl

/-! ### One byte -/

theorem byte_full (a : Byte) : andByte a 255 = a ∧ orByte a (compl 255) = a := by revert a; decide +kernel
theorem byte_none (a : Byte) : andByte a 0 = 0 ∧ orByte a (compl 0) = 255 := by revert a; decide +kernel

theorem byte_low (c : Fin 9) (a : Byte) :
    (andByte a (top c)).val = a.val / 2 ^ (8 - c.val) * 2 ^ (8 - c.val) ∧
    (orByte a (compl (top c))).val = a.val / 2 ^ (8 - c.val) * 2 ^ (8 - c.val) + (2 ^ (8 - c.val) - 1) := by
  revert a c; decide +kernel

theorem byte_range (c : Nat) (hc : c ≤ 8) (a b : Byte) :
    (andByte a (top c) ≤ b ∧ b ≤ orByte a (compl (top c))) ↔ ∀ j, j < c → a.val.testBit (7 - j) = b.val.testBit (7 - j) := by
  obtain ⟨h1, h2⟩ := byte_low ⟨c, by omega⟩ a
  rw [Fin.le_def, Fin.le_def]
  have h1 : (andByte a (top c)).val = _ := h1
  have h2 : (orByte a (compl (top c))).val = _ := h2
  rw [h1, h2]
  have hp : 0 < 2 ^ (8 - c) := Nat.two_pow_pos _
  have key : (a.val / 2 ^ (8 - c) * 2 ^ (8 - c) ≤ b.val ∧ b.val ≤ a.val / 2 ^ (8 - c) * 2 ^ (8 - c) + (2 ^ (8 - c) - 1)) ↔
      a.val / 2 ^ (8 - c) = b.val / 2 ^ (8 - c) := by
    constructor
    · rintro ⟨h1, h2⟩
      symm
      rw [Nat.div_eq_iff hp]
      omega
    · intro h
      rw [h]
      have h1 := Nat.div_mul_le_self b.val (2 ^ (8 - c))
      have h2 := Nat.div_add_mod b.val (2 ^ (8 - c))
      have h3 := Nat.mod_lt b.val hp
      rw [Nat.mul_comm] at h2
      omega
  show (a.val / 2 ^ (8 - c) * 2 ^ (8 - c) ≤ b.val ∧ b.val ≤ a.val / 2 ^ (8 - c) * 2 ^ (8 - c) + (2 ^ (8 - c) - 1)) ↔ _
  rw [key]
  constructor
  · intro h j hj
    have := congrArg (fun x => Nat.testBit x (c - 1 - j)) h
    simp only [Nat.testBit_div_two_pow] at this
    rw [show c - 1 - j + (8 - c) = 7 - j by omega] at this
    exact this
  · intro h
    apply Nat.eq_of_testBit_eq
    intro i
    simp only [Nat.testBit_div_two_pow]
    by_cases hi : i < c
    · have := h (c - 1 - i) (by omega)
      rw [show 7 - (c - 1 - i) = i + (8 - c) by omega] at this
      exact this
    · rw [Nat.testBit_lt_two_pow (Nat.lt_of_lt_of_le a.isLt (show 256 ≤ 2 ^ (i + (8 - c)) from Nat.pow_le_pow_right (n := 2) (by omega) (show 8 ≤ i + (8 - c) by omega))),
          Nat.testBit_lt_two_pow (Nat.lt_of_lt_of_le b.isLt (show 256 ≤ 2 ^ (i + (8 - c)) from Nat.pow_le_pow_right (n := 2) (by omega) (show 8 ≤ i + (8 - c) by omega)))]

/-! ### Byte arrays -/

theorem agree_cons (a b : Byte) (l m : List Byte) (len : Nat) :
    agree (a :: l) (b :: m) len ↔ (∀ j, j < min len 8 → a.val.testBit (7 - j) = b.val.testBit (7 - j)) ∧ agree l m (len - 8) := by
  have hb : ∀ (x : Byte) (r : List Byte) (j : Nat), j < 8 → bit (x :: r) j = x.val.testBit (7 - j) := by
    intro x r j hj
    unfold bit
    rw [Nat.div_eq_of_lt hj, Nat.mod_eq_of_lt hj]
    rfl
  have ht : ∀ (x : Byte) (r : List Byte) (j : Nat), bit (x :: r) (j + 8) = bit r j := by
    intro x r j
    unfold bit
    rw [show (j + 8) / 8 = j / 8 + 1 by omega, List.getElem?_cons_succ, show (j + 8) % 8 = j % 8 by omega]
  constructor
  · intro h
    refine ⟨fun j hj => ?_, fun j hj => ?_⟩
    · have := h j (by omega)
      rwa [hb _ _ _ (by omega), hb _ _ _ (by omega)] at this
    · have := h (j + 8) (by omega)
      rwa [ht, ht] at this
  · rintro ⟨h1, h2⟩ i hi
    by_cases h8 : i < 8
    · rw [hb _ _ _ h8, hb _ _ _ h8]; exact h1 i (by omega)
    · have := h2 (i - 8) (by omega)
      rw [← ht a l, ← ht b m] at this
      rwa [show i - 8 + 8 = i by omega] at this

theorem agree_zero (l m : List Byte) : agree l m 0 := fun i hi => absurd hi (Nat.not_lt_zero i)

/-- With a length of zero the range is everything. -/
theorem range_all (size : Nat) (a b : List Byte) (ha : a.length = size) (hb : b.length = size) :
    leBytes (List.zipWith andByte a (maskBytes size 0)) b = true ∧ leBytes b (List.zipWith orByte a ((maskBytes size 0).map compl)) = true := by
  induction size generalizing a b with
  | zero =>
    rw [List.length_eq_zero_iff] at ha hb
    rw [ha, hb, mask_nil]
    exact ⟨rfl, rfl⟩
  | succ n ih =>
    match a, b, ha, hb with
    | x :: a, y :: b, ha, hb =>
      obtain ⟨h1, h2⟩ := ih a b (by simpa using ha) (by simpa using hb)
      rw [mask_cons, Nat.zero_sub]
      obtain ⟨e1, e2⟩ := byte_none x
      simp only [List.map_cons, List.zipWith_cons_cons, leBytes]
      rw [show top 0 = 0 from rfl, e1, e2, h1, h2]
      simp only [Bool.and_true, Bool.or_eq_true, decide_eq_true_eq, beq_iff_eq]
      constructor
      · rw [Fin.lt_def, ← Fin.val_inj]; show 0 < y.val ∨ 0 = y.val; omega
      · rw [Fin.lt_def, ← Fin.val_inj]; show y.val < 255 ∨ y.val = 255; omega

theorem range_iff (size len : Nat) (a b : List Byte) (ha : a.length = size) (hb : b.length = size) :
    (leBytes (List.zipWith andByte a (maskBytes size len)) b = true ∧ leBytes b (List.zipWith orByte a ((maskBytes size len).map compl)) = true) ↔ agree a b len := by
  induction size generalizing a b len with
  | zero =>
    rw [List.length_eq_zero_iff] at ha hb
    rw [ha, hb, mask_nil]
    exact ⟨fun _ _ _ => rfl, fun _ => ⟨rfl, rfl⟩⟩
  | succ n ih =>
    match a, b, ha, hb with
    | x :: a, y :: b, ha, hb =>
      have ha : a.length = n := by simpa using ha
      have hb : b.length = n := by simpa using hb
      rw [mask_cons, agree_cons]
      simp only [List.map_cons, List.zipWith_cons_cons, leBytes, Bool.or_eq_true, Bool.and_eq_true, decide_eq_true_eq, beq_iff_eq]
      by_cases h8 : 8 ≤ len
      · have ht : top len = 255 := by
          unfold top
          rw [List.getElem?_eq_none (by simpa using h8)]
          rfl
        obtain ⟨e1, e2⟩ := byte_full x
        rw [ht, e1, e2, ← ih (len - 8) a b ha hb]
        have hr := byte_range 8 (by omega) x y
        rw [show top 8 = 255 from rfl, e1, e2] at hr
        rw [Nat.min_eq_right h8, ← hr]
        constructor
        · rintro ⟨h1, h2⟩
          have hxy : x = y := by
            rcases h1 with h1 | h1
            · rcases h2 with h2 | h2
              · exact absurd h1 (Nat.lt_asymm h2)
              · exact h2.1.symm
            · exact h1.1
          subst hxy
          refine ⟨⟨Nat.le_refl _, Nat.le_refl _⟩, ?_, ?_⟩
          · rcases h1 with h1 | h1
            · exact absurd h1 (Nat.lt_irrefl _)
            · exact h1.2
          · rcases h2 with h2 | h2
            · exact absurd h2 (Nat.lt_irrefl _)
            · exact h2.2
        · rintro ⟨⟨h1, h2⟩, h3, h4⟩
          have hxy : x = y := Fin.ext (Nat.le_antisymm h1 h2)
          exact ⟨.inr ⟨hxy, h3⟩, .inr ⟨hxy.symm, h4⟩⟩
      · obtain ⟨r1, r2⟩ := range_all n a b ha hb
        rw [show len - 8 = 0 by omega, r1, r2, Nat.min_eq_left (by omega), ← byte_range len (by omega) x y]
        simp only [and_true]
        constructor
        · rintro ⟨h1, h2⟩
          exact ⟨⟨h1.elim Nat.le_of_lt (fun h => h ▸ Nat.le_refl _), h2.elim Nat.le_of_lt (fun h => h ▸ Nat.le_refl _)⟩, agree_zero _ _⟩
        · rintro ⟨⟨h1, h2⟩, _⟩
          exact ⟨(Nat.lt_or_eq_of_le h1).imp id Fin.ext, (Nat.lt_or_eq_of_le h2).imp id Fin.ext⟩

/-! ### The property -/

/-- The network of an IPv4 address and a length contains exactly the IPv4 addresses whose first bits agree; lengths above 32 are refused. -/
theorem C64_subnet4 (a : List Byte) (ha : a.length = 4) (len : Nat) (b : Addr) (hb : b.Ok) :
    if len ≤ 32 then ∃ n, makeNetwork (.v4 a) len = some n ∧ (n.contains b = true ↔ sameFamily (.v4 a) b ∧ agree a b.bytes len)
    else makeNetwork (.v4 a) len = none := by
  by_cases hl : len ≤ 32
  · rw [if_pos hl]
    refine ⟨⟨.v4 (List.zipWith andByte a (maskBytes 4 len)), .v4 (List.zipWith orByte a ((maskBytes 4 len).map compl))⟩, by simp only [makeNetwork]; rw [if_neg (by omega)], ?_⟩
    unfold Network.contains
    cases b with
    | v4 b =>
      simp only [Addr.le, Bool.and_eq_true, sameFamily, Addr.bytes, true_and]
      exact range_iff 4 len a b ha hb
    | v6 b i =>
      simp [Addr.le, sameFamily]
  · rw [if_neg hl]
    simp only [makeNetwork]
    rw [if_pos (by omega)]

/-- The same for IPv6 addresses without scope id. Missing: addresses with a scope id that are the last one of the subnet, which the network does not contain
(`C64_violated_scope`). -/
theorem C64_subnet6_partial (a : List Byte) (i : Nat) (ha : a.length = 16) (len : Nat) (b : Addr) (hb : b.Ok)
    (hs : ∀ x j, b = .v6 x j → j = 0 ∨ ∃ k, len ≤ k ∧ k < 128 ∧ bit x k = false) :
    if len ≤ 128 then ∃ n, makeNetwork (.v6 a i) len = some n ∧ (n.contains b = true ↔ sameFamily (.v6 a i) b ∧ agree a b.bytes len)
    else makeNetwork (.v6 a i) len = none := by
  by_cases hl : len ≤ 128
  · rw [if_pos hl]
    refine ⟨⟨.v6 (List.zipWith andByte a (maskBytes 16 len)) 0, .v6 (List.zipWith orByte a ((maskBytes 16 len).map compl)) 0⟩, by simp only [makeNetwork]; rw [if_neg (by omega)], ?_⟩
    unfold Network.contains
    cases b with
    | v4 b => simp [Addr.le, sameFamily]
    | v6 b j =>
      have hr := range_iff 16 len a b ha hb
      have hrefl : ∀ l : List Byte, leBytes l l = true := by
        intro l
        induction l with
        | nil => rfl
        | cons x l ih => simp [leBytes, ih]
      simp only [Addr.le, Bool.and_eq_true, sameFamily, Addr.bytes, true_and]
      rw [← hr]
      refine and_congr ?_ ?_
      · by_cases he : List.zipWith andByte a (maskBytes 16 len) = b
        · rw [if_pos he, he]; simp [hrefl]
        · rw [if_neg he]
      · by_cases he : b = List.zipWith orByte a ((maskBytes 16 len).map compl)
        · rw [if_pos he, ← he]
          simp only [hrefl, decide_eq_true_eq, iff_true]
          rcases hs b j rfl with h0 | ⟨k, k1, k2, k3⟩
          · omega
          · exfalso
            have hlen : (List.zipWith orByte a ((maskBytes 16 len).map compl)).length = 16 := by
              rw [List.length_zipWith, List.length_map, maskBytes_eq]; simp [ha]
            have hk8 : k / 8 < 16 := by omega
            rw [he] at k3
            unfold bit at k3
            rw [List.getElem?_eq_getElem (by rw [hlen]; exact hk8)] at k3
            simp only [List.getElem_zipWith, List.getElem_map, Option.map_some, Option.getD_some] at k3
            have hm : (maskBytes 16 len)[k / 8]'(by rw [maskBytes_eq]; simpa using hk8) = top (len - 8 * (k / 8)) := by
              simp only [maskBytes_eq, List.getElem_map, List.getElem_range]
            rw [hm] at k3
            have hbit : ∀ (c j : Fin 8), c.val ≤ j.val → ∀ x : Byte, (orByte x (compl (top c.val))).val.testBit (7 - j.val) = true := by decide +kernel
            have := hbit ⟨len - 8 * (k / 8), by omega⟩ ⟨k % 8, by omega⟩ (by show len - 8 * (k / 8) ≤ k % 8; omega) (a[k / 8]'(by rw [ha]; exact hk8))
            rw [this] at k3
            cases k3
        · rw [if_neg he]
  · rw [if_neg hl]
    simp only [makeNetwork]
    rw [if_pos (by omega)]

/-- 10.1.0.0/12 contains 10.15.255.255 but not 10.16.0.0; 2001:db8::/33. -/
example : (makeNetwork (.v4 [10, 1, 0, 0]) 12).any (fun n => n.contains (.v4 [10, 15, 255, 255]) && !n.contains (.v4 [10, 16, 0, 0])) = true ∧
    (makeNetwork (.v6 [0x20, 1, 0x0d, 0xb8, 0, 0, 0, 0, 0, 0, 0, 0, 0, 0, 0, 0] 0) 33).any (fun n =>
      n.contains (.v6 [0x20, 1, 0x0d, 0xb8, 0x7f, 0, 0, 0, 0, 0, 0, 0, 0, 0, 0, 1] 3) && !n.contains (.v6 [0x20, 1, 0x0d, 0xb8, 0x80, 0, 0, 0, 0, 0, 0, 0, 0, 0, 0, 1] 0)) = true := by
  refine ⟨?_, ?_⟩ <;> decide +kernel

/-- fe80::1/128 does not contain fe80::1%2, since the order of addresses takes the scope id into account. -/
theorem C64_violated_scope : ∃ (a : List Byte) (n : Network), a.length = 16 ∧ makeNetwork (.v6 a 0) 128 = some n ∧ agree a (Addr.v6 a 2).bytes 128 ∧
    n.contains (.v6 a 2) = false := by
  refine ⟨[0xfe, 0x80, 0, 0, 0, 0, 0, 0, 0, 0, 0, 0, 0, 0, 0, 1], _, rfl, rfl, fun _ _ => rfl, ?_⟩
  decide +kernel

/-! ### Lists -/

/-- The rules a predicate may have: on interfaces a name pattern, an Ethernet address or a subnet, on addresses a subnet only. -/
inductive RuleOk (lib : Lib) : Kind → List Char → List Char → Prop
  | ifname (v) (h : v ≠ []) : RuleOk lib .interface "ifname".toList v
  | ether (v) (h : lib.isEther v = true) : RuleOk lib .interface "ether".toList v
  | subnet (k v n) (h : '/' ∈ v) (h' : parseNetwork lib.parseAddr v = some n) : RuleOk lib k "subnet".toList v

theorem ruleOk_iff (lib : Lib) (kind : Kind) (k v : List Char) : RuleOk lib kind k v ↔ (isRuleSupported kind k = true ∧ isRuleValid lib k v = true) := by
  have e1 : kEther ≠ kIfname := by decide
  have e2 : kSubnet ≠ kIfname := by decide
  have e3 : kSubnet ≠ kEther := by decide
  have hs : ∀ kind, isRuleSupported kind kSubnet = true := by intro kind; cases kind <;> decide
  constructor
  · rintro (⟨_, h⟩ | ⟨_, h⟩ | ⟨_, _, n, h, h'⟩)
    · refine ⟨by decide, ?_⟩
      show isRuleValid lib kIfname v = true
      unfold isRuleValid; rw [if_pos rfl]; simpa using h
    · refine ⟨by decide, ?_⟩
      show isRuleValid lib kEther v = true
      unfold isRuleValid; rw [if_neg e1, if_pos rfl]; exact h
    · refine ⟨hs kind, ?_⟩
      show isRuleValid lib kSubnet v = true
      unfold isRuleValid isValidCidr; rw [if_neg e2, if_neg e3, h']; simpa using h
  · rintro ⟨h1, h2⟩
    have sub : k = kSubnet → RuleOk lib kind k v := by
      rintro rfl
      unfold isRuleValid isValidCidr at h2
      rw [if_neg e2, if_neg e3, Bool.and_eq_true, Option.isSome_iff_exists] at h2
      obtain ⟨h, n, hn⟩ := h2
      exact .subnet kind v n (by simpa using h) hn
    cases kind with
    | address => exact sub (by simpa [isRuleSupported] using h1)
    | interface =>
      simp only [isRuleSupported, Bool.or_eq_true, beq_iff_eq] at h1
      rcases h1 with (rfl | rfl) | h1
      · unfold isRuleValid at h2
        rw [if_pos rfl] at h2
        exact .ifname v (by simpa using h2)
      · unfold isRuleValid at h2
        rw [if_neg e1, if_pos rfl] at h2
        exact .ether v h2
      · exact sub h1

/-- A list of rules is accepted iff every rule is `*`, or of a supported kind and well-formed; and then it consists of the values (and `*`). -/
theorem C64_parse (lib : Lib) (kind : Kind) (l : List Item) :
    ((∀ x ∈ l, x.1 = ['*'] ∨ RuleOk lib kind x.1 x.2) →
      ∃ r, parseList lib kind l = some r ∧ ∀ v, v ∈ r ↔ ∃ x ∈ l, v = if x.1 = ['*'] then ['*'] else x.2) ∧
    ((∃ x ∈ l, x.1 ≠ ['*'] ∧ ¬ RuleOk lib kind x.1 x.2) → parseList lib kind l = none) := by
  simp only [ruleOk_iff]
  show ((∀ x ∈ l, x.1 = star ∨ _) → ∃ r, parseList lib kind l = some r ∧ ∀ v, v ∈ r ↔ ∃ x ∈ l, v = if x.1 = star then star else x.2) ∧ ((∃ x ∈ l, x.1 ≠ star ∧ _) → _)
  induction l with
  | nil => exact ⟨fun _ => ⟨[], rfl, by simp⟩, (fun ⟨x, h, _⟩ => by cases h)⟩
  | cons x l ih =>
    obtain ⟨k, v⟩ := x
    obtain ⟨ih1, ih2⟩ := ih
    constructor
    · intro h
      obtain ⟨r, hr, hm⟩ := ih1 (fun x hx => h x (List.mem_cons_of_mem _ hx))
      have h0 := h (k, v) List.mem_cons_self
      unfold parseList
      by_cases hs : k = star
      · rw [if_pos hs, hr]
        refine ⟨k :: r, rfl, fun w => ?_⟩
        rw [List.mem_cons, hm w]
        simp only [List.mem_cons, exists_eq_or_imp, hs, if_true]
      · rw [if_neg hs]
        have h0 := h0.resolve_left hs
        rw [if_pos (by rw [Bool.and_eq_true]; exact h0), hr]
        refine ⟨v :: r, rfl, fun w => ?_⟩
        rw [List.mem_cons, hm w]
        simp only [List.mem_cons, exists_eq_or_imp, hs, if_false]
    · rintro ⟨x, hx, h1, h2⟩
      unfold parseList
      rcases List.mem_cons.1 hx with hx | hx
      · have hk : k = x.1 := by rw [hx]
        have hv : v = x.2 := by rw [hx]
        rw [hk, hv, if_neg h1, if_neg (by rw [Bool.and_eq_true]; exact h2)]
      · have := ih2 ⟨x, hx, h1, h2⟩
        rw [this]
        split
        · rfl
        · split <;> rfl

/-- An address is accepted iff some whitelist rule matches it and no blacklist rule does, where `*` matches everything and a subnet its addresses. -/
theorem C64_accepts (lib : Lib) (l : Lists) (a : Addr) :
    l.accepts (addrMatches lib a) = true ↔
      (∃ r ∈ l.white, r = star ∨ ∃ n, r.contains '/' = true ∧ parseNetwork lib.parseAddr r = some n ∧ n.contains a = true) ∧
      ¬ ∃ r ∈ l.black, r = star ∨ ∃ n, r.contains '/' = true ∧ parseNetwork lib.parseAddr r = some n ∧ n.contains a = true := by
  have hm : ∀ r, addrMatches lib a r = true ↔ (r = star ∨ ∃ n, r.contains '/' = true ∧ parseNetwork lib.parseAddr r = some n ∧ n.contains a = true) := by
    intro r
    unfold addrMatches
    rw [Bool.or_eq_true, Bool.and_eq_true, Option.any_eq_true, beq_iff_eq]
    constructor
    · rintro (⟨h1, n, h2, h3⟩ | h)
      · exact .inr ⟨n, h1, h2, h3⟩
      · exact .inl h
    · rintro (h | ⟨n, h1, h2, h3⟩)
      · exact .inr h
      · exact .inl ⟨h1, n, h2, h3⟩
  unfold Lists.accepts
  rw [Bool.and_eq_true, List.any_eq_true, Bool.not_eq_true', ← Bool.not_eq_true, List.any_eq_true]
  simp only [hm]

/-- For interfaces a rule can also be a pattern for the name, or the Ethernet address. -/
theorem C64_accepts_netif (lib : Lib) (l : Lists) (i : Netif) :
    let hits := fun r => r = star ∨ lib.glob r i.name = true ∨ i.ether = r ∨
      ∃ n, r.contains '/' = true ∧ parseNetwork lib.parseAddr r = some n ∧ ∃ a ∈ i.addrs, n.contains a = true
    l.accepts (netifMatches lib i) = true ↔ (∃ r ∈ l.white, hits r) ∧ ¬ ∃ r ∈ l.black, hits r := by
  intro hits
  have hm : ∀ r, netifMatches lib i r = true ↔ hits r := by
    intro r
    unfold netifMatches
    simp only [Bool.or_eq_true, Bool.and_eq_true, Option.any_eq_true, beq_iff_eq, List.any_eq_true]
    constructor
    · rintro (⟨h1, n, h2, h3⟩ | (h | h) | h)
      · exact .inr (.inr (.inr ⟨n, h1, h2, h3⟩))
      · exact .inl h
      · exact .inr (.inl h)
      · exact .inr (.inr (.inl h))
    · rintro (h | h | h | ⟨n, h1, h2, h3⟩)
      · exact .inr (.inl (.inl h))
      · exact .inr (.inl (.inr h))
      · exact .inr (.inr h)
      · exact .inl ⟨h1, n, h2, h3⟩
  unfold Lists.accepts
  rw [Bool.and_eq_true, List.any_eq_true, Bool.not_eq_true', ← Bool.not_eq_true, List.any_eq_true]
  simp only [hm]

/-- Without configuration every address and every interface is accepted. -/
theorem C64_default (lib : Lib) (a : Addr) (i : Netif) : Lists.init.accepts (addrMatches lib a) = true ∧ Lists.init.accepts (netifMatches lib i) = true := by
  have hb : ∀ P : List Char → Prop, ¬ ∃ r ∈ Lists.init.black, P r := by rintro P ⟨r, hr, -⟩; cases hr
  exact ⟨(C64_accepts _ _ _).2 ⟨⟨star, by decide, .inl rfl⟩, hb _⟩, (C64_accepts_netif _ _ _).2 ⟨⟨star, by decide, .inl rfl⟩, hb _⟩⟩

/-- What a rule `address/digits` parses to. -/
theorem C64_cidr (lib : Lib) (p d : List Char) (hp : '/' ∉ p) (hd : ∀ c ∈ d, 48 ≤ c.toNat ∧ c.toNat ≤ 57) (hne : d ≠ []) :
    parseNetwork lib.parseAddr (p ++ '/' :: d) =
      (lib.parseAddr p).bind (fun a => let n := d.foldl (fun n c => 10 * n + (c.toNat - 48)) 0; if n < 2 ^ 64 then makeNetwork a n else none) := by
  have h1 : (p ++ '/' :: d).takeWhile (· != '/') = p := by
    rw [List.takeWhile_append_of_pos (fun c hc => by simp only [bne_iff_ne, ne_eq]; intro he; rw [he] at hc; exact hp hc)]
    simp
  have h2 : (p ++ '/' :: d).dropWhile (· != '/') = '/' :: d := by
    rw [List.dropWhile_append_of_pos (fun c hc => by simp only [bne_iff_ne, ne_eq]; intro he; rw [he] at hc; exact hp hc)]
    simp
  unfold parseNetwork
  rw [if_pos (by simp), h1, h2]
  cases lib.parseAddr p with
  | none => rfl
  | some a =>
    dsimp only [Option.bind_some]
    rw [List.drop_one, List.tail_cons, if_pos (by rw [List.all_eq_true]; intro c hc; exact decide_eq_true (hd c hc))]
    unfold parseLen
    rw [if_neg hne]
    dsimp only
    split <;> rfl

def sampleLib : Lib :=
  ⟨fun s => if s = "10.0.0.0".toList then some (.v4 [10, 0, 0, 0]) else if s = "10.9.0.0".toList then some (.v4 [10, 9, 0, 0]) else none, fun _ => false, fun _ _ => false⟩

example : parseList sampleLib .address [(kSubnet, "10.0.0.0/8".toList)] = some ["10.0.0.0/8".toList] ∧
    parseList sampleLib .address [(kIfname, "eth0".toList)] = none ∧
    Lists.accepts ⟨["10.0.0.0/8".toList], ["10.9.0.0/16".toList]⟩ (addrMatches sampleLib (.v4 [10, 8, 1, 1])) = true ∧
    Lists.accepts ⟨["10.0.0.0/8".toList], ["10.9.0.0/16".toList]⟩ (addrMatches sampleLib (.v4 [10, 9, 1, 1])) = false := by
  refine ⟨?_, ?_, ?_, ?_⟩ <;> decide +kernel

end Verif.Net
