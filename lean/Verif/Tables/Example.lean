import Verif.Tables.Spec

/-! A concrete instance of the parameters, for the examples. -/
namespace Verif.Tb

def costIns (x : NextHop) : List NextHop → List NextHop
  | [] => [x]
  | y :: l => if x.cost ≤ y.cost then x :: y :: l else y :: costIns x l

def costSort : List NextHop → List NextHop
  | [] => []
  | x :: l => costIns x (costSort l)

theorem costIns_perm (x : NextHop) (l : List NextHop) : (costIns x l).Perm (x :: l) := by
  induction l with
  | nil => exact List.Perm.refl _
  | cons y l ih =>
    rw [costIns]; split
    · exact List.Perm.refl _
    · exact (List.Perm.cons y ih).trans (List.Perm.swap x y l)

theorem costIns_le (x : NextHop) (l : List NextHop) (h : l.Pairwise (fun a b => a.cost ≤ b.cost)) : (costIns x l).Pairwise (fun a b => a.cost ≤ b.cost) := by
  induction l with
  | nil => simp [costIns]
  | cons y l ih =>
    rw [List.pairwise_cons] at h
    rw [costIns]; split
    · rename_i hxy
      rw [List.pairwise_cons]
      refine ⟨?_, List.pairwise_cons.2 h⟩
      intro a ha
      rcases List.mem_cons.1 ha with rfl | ha
      · exact hxy
      · exact Nat.le_trans hxy (h.1 a ha)
    · rename_i hxy
      rw [List.pairwise_cons]
      refine ⟨?_, ih h.2⟩
      intro a ha
      rcases List.mem_cons.1 ((costIns_perm x l).mem_iff.1 ha) with rfl | ha
      · omega
      · exact h.1 a ha

theorem costSort_perm (l : List NextHop) : (costSort l).Perm l := by
  induction l with
  | nil => exact List.Perm.refl _
  | cons x l ih => exact (costIns_perm x _).trans (List.Perm.cons x ih)

theorem costSort_le (l : List NextHop) : (costSort l).Pairwise (fun a b => a.cost ≤ b.cost) := by
  induction l with
  | nil => simp [costSort]
  | cons x l ih => exact costIns_le x _ ih

/-- A generic component. -/
def gc (n : Nat) : Component := ⟨8, [n.toUInt8]⟩
/-- An implicit digest component. -/
def dc (n : Nat) : Component := ⟨1, List.replicate 32 n.toUInt8⟩

/-- Strategies: `/s/k` for k = 1, 2 (types 1, 2); `/s/k/p` also has parameters; `/s/3` throws. -/
def exCreate (n : Name) : Created :=
  match n with
  | [a, b] => if a = gc 200 ∧ (b = gc 1 ∨ b = gc 2) then .ok n else if a = gc 200 ∧ b = gc 3 then .exception else .notRegistered
  | [a, b, _] => if a = gc 200 ∧ (b = gc 1 ∨ b = gc 2) then .ok n else .notRegistered
  | _ => .notRegistered

def exTyp (n : Name) : Option Nat :=
  match n with
  | a :: b :: _ => if a = gc 200 then (if b = gc 1 then some 1 else if b = gc 2 then some 2 else none) else none
  | _ => none

def exEnv : Env where
  ch := fun c => c.typ + 3 * c.val.length + (c.val.headD 0).toNat
  opts := .default 4 (by decide)
  sort := costSort
  sort_perm := costSort_perm
  sort_le := costSort_le
  create := exCreate
  styp := exTyp

def st1 : Name := [gc 200, gc 1]
def st2 : Name := [gc 200, gc 2]

/-- A history from the initial state. -/
def exRun (ops : List Op) : Option Tables := (init exEnv st1).bind (fun s => run exEnv s ops)

theorem exRun_reachable {ops : List Op} {s : Tables} (h : exRun ops = some s) : Reachable exEnv st1 s := by
  rw [exRun, Option.bind_eq_some_iff] at h
  obtain ⟨s0, h1, h2⟩ := h
  exact ⟨s0, ops, h1, h2⟩

end Verif.Tb
