/-! `PrivilegeHelper` (daemon/common/privilege-helper.hpp, privilege-helper.cpp), compiled with
`NFD_HAVE_PRIVILEGE_DROP_AND_ELEVATE`. Every system call may succeed or fail as the system pleases. -/
namespace Verif.Priv

/-- The four static members (privilege-helper.cpp:36-40), the effective identity of the process, and the outcomes of the
identity-changing system calls still to come (an exhausted list: they succeed). -/
structure St where
  normalUid : Nat
  normalGid : Nat
  privUid : Nat
  privGid : Nat
  euid : Nat
  egid : Nat
  outcomes : List Bool := []
deriving DecidableEq, Repr

/-- How a call ends: by returning, with `PrivilegeHelper::Error` (privilege-helper.hpp:44-62), or with another exception. -/
inductive End
  | returned
  | error
  | exception
deriving DecidableEq, Repr

/-- At start-up all identities are that of the process (privilege-helper.cpp:35-41). -/
def start (uid gid : Nat) (outcomes : List Bool) : St := ⟨uid, gid, uid, gid, uid, gid, outcomes⟩

/-- `::seteuid` (called at privilege-helper.cpp:129, 146): the effective uid changes exactly when the call succeeds. -/
def seteuid (s : St) (u : Nat) : St × Bool :=
  match s.outcomes with
  | [] => ({ s with euid := u }, true)
  | ok :: rest => if ok then ({ s with euid := u, outcomes := rest }, true) else ({ s with outcomes := rest }, false)

/-- `::setegid` (called at privilege-helper.cpp:125, 150). -/
def setegid (s : St) (g : Nat) : St × Bool :=
  match s.outcomes with
  | [] => ({ s with egid := g }, true)
  | ok :: rest => if ok then ({ s with egid := g, outcomes := rest }, true) else ({ s with outcomes := rest }, false)

/-- `PrivilegeHelper::drop` (privilege-helper.cpp:117-136). -/
def drop (s : St) : St × End :=
  if s.euid = s.normalUid ∧ s.egid = s.normalGid then (s, .returned)
  else
    let a := setegid s s.normalGid
    if a.2 = false then (a.1, .error)
    else
      let b := seteuid a.1 a.1.normalUid
      if b.2 = false then (b.1, .error) else (b.1, .returned)

/-- `PrivilegeHelper::raise` (privilege-helper.cpp:138-157). -/
def raise (s : St) : St × End :=
  if s.euid = s.privUid ∧ s.egid = s.privGid then (s, .returned)
  else
    let a := seteuid s s.privUid
    if a.2 = false then (a.1, .error)
    else
      let b := setegid a.1 a.1.privGid
      if b.2 = false then (b.1, .error) else (b.1, .returned)

/-- `PrivilegeHelper::runElevated` (privilege-helper.hpp:71-84). The function run is any change of the state; `drop` throwing
inside the handler replaces the exception. -/
def runElevated (f : St → St × End) (s : St) : St × End :=
  let a := raise s
  match a.2 with
  | .returned =>
    let b := f a.1
    match b.2 with
    | .returned => drop b.1
    | e => let c := drop b.1; (c.1, if c.2 = .returned then e else c.2)
  | e => (a.1, e)

/-- What `getgrnam_r`/`getpwnam_r` find for a name: no entry, or an error, or an id with the buffer size the entry needs. -/
inductive Entry
  | missing
  | failure
  | found (id : Nat) (need : Nat)
deriving DecidableEq, Repr

/-- The limit on the buffer (privilege-helper.cpp:48-49). -/
def maxBuffer : Nat := 16384

/-- The lookup with a buffer that is doubled while it is too small (privilege-helper.cpp:60-80, 86-106), run with `fuel` calls
at most. `size`, the size of the buffer, starts as given by `sysconf`; a size of 0 would make the C++ loop forever. -/
def lookup (e : Entry) : (fuel size : Nat) → Option Nat
  | 0, _ => none
  | fuel + 1, size =>
    match e with
    | .missing => none
    | .failure => none
    | .found id need =>
      if size < need then (if maxBuffer < size * 2 then none else lookup e fuel (size * 2))
      else some id

/-- `PrivilegeHelper::initialize` (privilege-helper.cpp:44-115); `none`: the name given is empty. The two `sysconf` sizes are
parameters. `maxBuffer` calls are more than can happen. -/
def init (s : St) (user group : Option Entry) (userSize groupSize : Nat) : St × End :=
  let g := match group with
    | none => some s.normalGid
    | some e => lookup e maxBuffer groupSize
  match g with
  | none => (s, .error)
  | some gid =>
    let s := { s with normalGid := gid }
    match (match user with | none => some s.normalUid | some e => lookup e maxBuffer userSize) with
    | none => (s, .error)
    | some uid => ({ s with normalUid := uid }, .returned)

end Verif.Priv
