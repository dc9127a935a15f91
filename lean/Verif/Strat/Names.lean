import Verif.Name.Model

/-
Model of how strategy instance names are resolved (daemon/fw/strategy.cpp:40-164, strategy.hpp:47-65) and of what the constructors of the
supplied strategies check. `none`, where it stands for an assertion or an exception, is said to.
Not modelled: conversion of parameter values to numbers (`StrategyParameters::getOrDefault`, boost::lexical_cast): a constructor that takes
parameters has an arbitrary predicate on the parsed parameters.
-/
namespace Verif.Strat

/-- ndn-cxx `Component::isVersion()`: TYPE 54, VALUE a NonNegativeInteger (1, 2, 4 or 8 octets). -/
def isVersion (c : Component) : Bool :=
  c.typ == ttVersion && (c.val.length == 1 || c.val.length == 2 || c.val.length == 4 || c.val.length == 8)

/-- A big-endian number. -/
def beNat (l : List Byte) : Nat := l.foldl (fun a b => a * 256 + b.toNat) 0

/-- ndn-cxx `Component::toVersion()` -/
def toVersion (c : Component) : Nat := beNat c.val

/-- `Strategy::Registry`, a `std::map<Name, CreateFunc>`: the names, in order. -/
abbrev Registry := List Name

/-- Insertion into the ordered map; `none` if the key is there (`BOOST_VERIFY(r.second)`). -/
def insertSorted (n : Name) : Registry → Option Registry
  | [] => some [n]
  | r :: l =>
    match Name.cmp n r with
    | .lt => some (n :: r :: l)
    | .eq => none
    | .gt => (insertSorted n l).map (r :: ·)

/-- `registerType` (strategy.hpp:55-65); `none` is a failed assertion. -/
def register (reg : Registry) (n : Name) : Option Registry :=
  if 1 < n.length ∧ n.getLast?.any isVersion = true then insertSorted n reg else none

def registerAll : Registry → List Name → Option Registry
  | reg, [] => some reg
  | reg, n :: l => (register reg n).bind (fun reg => registerAll reg l)

/-- `ParsedInstanceName` (strategy.hpp) -/
structure Parsed where
  strategyName : Name
  version : Option Nat
  params : Name
deriving DecidableEq, Repr

/-- The loop of `parseInstanceName` (strategy.cpp:122-131); the argument is `i`, which goes down to 1. -/
def parseLoop (input : Name) : Nat → Parsed
  | 0 => ⟨input, none, []⟩
  | i + 1 =>
    match input[i + 1]? with
    | none => parseLoop input i
    | some c => if isVersion c then ⟨input.take (i + 2), some (toVersion c), input.drop (i + 2)⟩ else parseLoop input i

def parseInstanceName (input : Name) : Parsed := parseLoop input (input.length - 1)

/-- `std::map::lower_bound`: position of the first key not less than `x`. -/
def lowerBound (reg : Registry) (x : Name) : Nat := reg.findIdx (fun r => Name.cmp r x != .lt)

/-- `Strategy::find` (strategy.cpp:47-83) -/
def findStrategy (reg : Registry) (inst : Name) : Option Name :=
  let parsed := parseInstanceName inst
  match parsed.version with
  | some _ =>
    match reg[lowerBound reg parsed.strategyName]? with
    | none => none
    | some r => if (Name.parent parsed.strategyName).isPrefixOf r then some r else none
  | none =>
    if parsed.strategyName = [] then none
    else
      match lowerBound reg (Name.succ parsed.strategyName) with
      | 0 => none
      | k + 1 =>
        match reg[k]? with
        | none => none
        | some r => if Name.isPrefixOf parsed.strategyName r then some r else none

/-- `areSameType` (strategy.cpp:107-111) -/
def areSameType (reg : Registry) (a b : Name) : Bool := findStrategy reg a == findStrategy reg b

/-- `makeInstanceName` (strategy.cpp:133-141); the strategy name is `base` followed by the version. -/
def makeInstanceName (input : Name) (v : Component) : Name := if input.any isVersion then input else input ++ [v]

/-- One component of `parseParameters` (strategy.cpp:148-161): what precedes and follows the first `~` (126); `none` is an exception. -/
def parseParam (c : Component) : Option (List Byte × List Byte) :=
  match c.val.findIdx? (· == 126) with
  | none => none
  | some k => if k = 0 ∨ c.val.drop (k + 1) = [] then none else some (c.val.take k, c.val.drop (k + 1))

/-- `parseParameters` (strategy.cpp:143-164): a later value for the same parameter replaces an earlier one. -/
def parseParameters : Name → Option (List (List Byte × List Byte))
  | [] => some []
  | c :: l => (parseParam c).bind (fun p => (parseParameters l).map (fun r => if r.any (·.1 == p.1) then r else p :: r))

/-- What the constructor of a registered strategy accepts: whether it takes parameters at all (random-strategy.cpp:41-43), and
otherwise which ones (best-route-strategy.cpp:45-46). -/
structure Ctor where
  params : Option (List (List Byte × List Byte) → Bool)

inductive Created
  | instance (type : Name) (instanceName : Name)
  | notRegistered
  | exception
deriving DecidableEq, Repr

/-- `Strategy::create` (strategy.cpp:91-105) with the checks in the constructors (e.g. best-route-strategy.cpp:35-51,
random-strategy.cpp:36-49). -/
def create (ctors : Name → Ctor) (reg : Registry) (inst : Name) : Created :=
  match findStrategy reg inst with
  | none => .notRegistered
  | some r =>
    let parsed := parseInstanceName inst
    match r.getLast? with
    | none => .exception
    | some v =>
      if parsed.version.any (· != toVersion v) then .exception
      else
        match (ctors r).params with
        | none => if parsed.params = [] then .instance r (makeInstanceName inst v) else .exception
        | some ok =>
          match parseParameters parsed.params with
          | none => .exception
          | some ps => if ok ps then .instance r (makeInstanceName inst v) else .exception

end Verif.Strat
