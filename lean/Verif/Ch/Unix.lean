/-
Model of the Unix stream channel: daemon/face/unix-stream-channel.cpp.

The first part is about the socket file. Several instances of NFD, each a process of its own, use one path; the operating system interleaves
their system calls. The second part is about the faces of one channel.

Not modelled: the creation of the parent directory (lines 74-78), the permissions themselves, the options of the link service.
-/
import Verif.Tp.Props

namespace Verif.Ch.Unix

/-- What is at the path: a socket (that was bound by some process), or something that is not a socket and that can be removed (a regular file or a
symbolic link; directories are not modelled). -/
inductive Kind where
  | sock (s : Nat)
  | other
deriving DecidableEq, Repr

/-- The errors that `listen` throws: lines 90, 103, 114 and those of `fs::remove` (97) and `fs::permissions` (122). -/
inductive Err where
  | addressInUse
  | notASocket
  | system
deriving DecidableEq, Repr

/-- How far `UnixStreamChannel::listen` has come; between two system calls other processes may run. -/
inductive Pc where
  /-- `listen` was not called, or has thrown, or has returned -/
  | idle
  /-- before `symlink_status`, line 80 -/
  | status
  /-- before `socket.connect`, line 86 -/
  | probe
  /-- before `fs::remove`, line 97 -/
  | remove
  /-- before `m_acceptor.bind`, line 109 -/
  | bind
  /-- before `m_acceptor.listen`, line 110 -/
  | listen
  /-- before `fs::permissions`, line 122 -/
  | perms
  /-- the process has ended -/
  | gone
deriving DecidableEq, Repr

/-- One process with its channel: `sock` is the socket of `m_acceptor`, once bound, `hears` says that `listen(2)` was called on it,
`isListening` is `m_isListening`, `error` is what the last call of `listen` has thrown, `done` says that it has returned. -/
structure Inst where
  pc : Pc := .idle
  sock : Option Nat := none
  hears : Bool := false
  isListening : Bool := false
  done : Bool := false
  error : Option Err := none
deriving DecidableEq, Repr

/-- The file at the path, the number of sockets so far, and the processes. -/
structure World where
  file : Option Kind
  next : Nat
  insts : List Inst
deriving DecidableEq, Repr

/-- A world without processes. A socket at the path is a stale one. -/
def World.start : Option Kind → World
  | some (.sock _) => ⟨some (.sock 0), 1, []⟩
  | f => ⟨f, 0, []⟩

/-- Is there a process that listens on this socket? -/
def heard (w : World) (s : Nat) : Bool := w.insts.any (fun x => x.hears && x.sock == some s)

/-- unix-stream-channel.cpp:66-69: `listen` begins. Simplification: it is not called again after it has thrown (NFD ends). -/
def begin (x : Inst) : Inst :=
  if x.pc = .idle ∧ x.isListening = false ∧ x.error = none then { x with pc := .status } else x

/-- The call throws. -/
def throw (x : Inst) (e : Err) : Inst := { x with pc := .idle, error := some e }

/-- The next system call of `listen`; `good` says whether it succeeds where the operating system has the choice.
unix-stream-channel.cpp:80-126. -/
def next (w : World) (x : Inst) (good : Bool) : Option Kind × Nat × Inst :=
  match x.pc with
  | .idle | .gone => (w.file, w.next, x)
  -- 80-81, 100-105
  | .status =>
    match w.file with
    | none => (w.file, w.next, { x with pc := .bind })
    | some (.sock _) => (w.file, w.next, { x with pc := .probe })
    | some .other => (w.file, w.next, throw x .notASocket)
  -- 82-99: `good` says that there is no other error; without a listener, or a socket, the connection is refused
  | .probe =>
    match w.file with
    | none => (w.file, w.next, { x with pc := .bind })
    | some (.sock s) =>
      if good then (if heard w s then (w.file, w.next, throw x .addressInUse) else (w.file, w.next, { x with pc := .remove }))
      else (w.file, w.next, { x with pc := .bind })
    | some .other => if good then (w.file, w.next, { x with pc := .remove }) else (w.file, w.next, { x with pc := .bind })
  -- 97
  | .remove => if good then (none, w.next, { x with pc := .bind }) else (w.file, w.next, throw x .system)
  -- 108-109, 112-116
  | .bind =>
    match w.file with
    | none => if good then (some (.sock w.next), w.next + 1, { x with pc := .listen, sock := some w.next }) else (w.file, w.next, throw x .system)
    | some _ => (w.file, w.next, throw x .addressInUse)
  -- 110, 112-116, 120
  | .listen => if good then (w.file, w.next, { x with pc := .perms, hears := true, isListening := true }) else (w.file, w.next, throw x .system)
  -- 122-126
  | .perms => if good then (w.file, w.next, { x with pc := .idle, done := true }) else (w.file, w.next, throw x .system)

/-- Is the process between two system calls of `listen`? -/
def Pc.mid : Pc → Bool
  | .idle | .gone => false
  | _ => true

/-- The process ends, and its socket is closed with it. -/
def kill (x : Inst) : Inst := { x with pc := .gone, sock := none, hears := false, isListening := false }

inductive Event where
  /-- a process starts and creates its channel -/
  | new
  /-- process `i` calls `listen` -/
  | begin (i : Nat)
  /-- the next system call of process `i` -/
  | next (i : Nat) (good : Bool)
  /-- process `i` destroys its channel and ends -/
  | destroy (i : Nat)
  /-- process `i` ends without doing so -/
  | crash (i : Nat)
  /-- somebody else puts something else at the path, or removes what is there -/
  | ext (k : Option Kind)
deriving DecidableEq, Repr

/-- The process an event belongs to. -/
def Event.who : Event → Option Nat
  | .begin i | .next i _ | .destroy i | .crash i => some i
  | .new | .ext _ => none

def step (w : World) : Event → World
  | .new => { w with insts := w.insts ++ [{}] }
  | .begin i =>
    match w.insts[i]? with
    | none => w
    | some x => { w with insts := w.insts.set i (begin x) }
  | .next i good =>
    match w.insts[i]? with
    | none => w
    | some x => { file := (next w x good).1, next := (next w x good).2.1, insts := w.insts.set i (next w x good).2.2 }
  -- 49-59; a process is not in its destructor and in `listen` at once
  | .destroy i =>
    match w.insts[i]? with
    | none => w
    | some x =>
      if x.pc = .idle then { w with file := if x.isListening then none else w.file, insts := w.insts.set i (kill x) } else w
  | .crash i =>
    match w.insts[i]? with
    | none => w
    | some x => { w with insts := w.insts.set i (kill x) }
  | .ext k =>
    match k with
    | none => { w with file := none }
    | some .other => { w with file := some .other }
    | some (.sock _) => { w with file := some (.sock w.next), next := w.next + 1 }

def run (w : World) (es : List Event) : World := es.foldl step w

/-! ### The faces of a channel -/

/-- A channel that listens: its faces, what `size()` returns (`m_size`; `none` when it has become less than zero), and whether an accept
is outstanding. -/
structure Chan where
  faces : List Tp.St
  size : Option Nat
  accepting : Bool
  failures : Nat

def Chan.init : Chan := ⟨[], some 0, true, 0⟩

inductive ChanEvent where
  | accept
  | acceptFail
  | face (k : Nat) (e : Tp.Event)

/-- unix-stream-channel.cpp:129-161: accept a connection (the face is on-demand, unix-stream-transport.cpp:45), or fail to; and what happens to
a face, whose `afterStateChange` signal decrements the counter when it gets CLOSED (channel.cpp:45-53). -/
def chanStep (c : Chan) : ChanEvent → Except Tp.Fault Chan
  | .accept => if c.accepting then .ok { c with faces := c.faces ++ [Tp.init false .onDemand], size := c.size.map (· + 1) } else .ok c
  | .acceptFail => if c.accepting then .ok { c with accepting := false, failures := c.failures + 1 } else .ok c
  | .face k e =>
    match c.faces[k]? with
    | none => .ok c
    | some f => do
      let f' ← Tp.step f e
      pure { c with
        faces := c.faces.set k f'
        size := if f'.state = .closed ∧ f.state ≠ .closed then (match c.size with | some (n + 1) => some n | _ => none) else c.size }

def chanRun (c : Chan) : List ChanEvent → Except Tp.Fault Chan
  | [] => .ok c
  | e :: es => do chanRun (← chanStep c e) es

end Verif.Ch.Unix
