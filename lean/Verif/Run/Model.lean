/-
The two threads of NFD: the forwarder and the RIB manager, their start and their end (`NfdRunner::run`, daemon/main.cpp:104-180; daemon/common/global.cpp).

Conventions:
* The threads take turns in any order. What a handler does, and what happens when the RIB service is set up, is arbitrary, and so chosen by the turn.
* A critical section is one step. The condition variable is a flag that says whether the main thread sleeps; it may wake up for no reason.
* `io_context::run` ends when the context is stopped, when a handler throws, and when there is nothing left to do. The main thread always waits for signals
  (main.cpp:90-95), so it never runs out of work.
* Between two handlers the stopped flag is looked at; a handler that has begun goes on when the context is stopped from the other thread.
* `mainThrew` and `ribThrew` are ghosts.
-/
namespace Verif.Run

/-- What is thrown: something derived from `std::exception`, or `PrivilegeHelper::Error`, which is not (privilege-helper.hpp:45-58). -/
inductive Exc where
  | std | priv
deriving DecidableEq, Repr

/-- Where the main thread is (main.cpp:149-179). -/
inductive MainPc where
  /-- in `cv.wait` (153) -/
  | waiting (asleep : Bool)
  /-- before `mainIo->run()` (157) -/
  | ready
  /-- in `mainIo->run()`, between handlers (158) -/
  | loop
  /-- in a handler -/
  | handler
  /-- in one of the `catch` clauses (160-167) -/
  | caught (e : Exc)
  /-- before the last critical section (171) -/
  | finish
  /-- in `ribThread.join()` (177) -/
  | joining
  /-- `run` has returned -/
  | done
deriving DecidableEq, Repr

/-- Where the RIB thread is (main.cpp:122-147). -/
inductive RibPc where
  /-- before the first critical section (124) -/
  | start
  /-- before `cv.notify_all()` (129) -/
  | notify
  /-- constructs the RIB service (132-134) -/
  | setUp
  /-- in `run()`, between handlers (135) -/
  | loop
  | handler
  /-- before `retval = 1` (139) -/
  | failed
  /-- before `mainIo->stop()` (140) -/
  | stopMain
  /-- before the last critical section (144) -/
  | leave
  /-- before the objects of the thread are destroyed (global.cpp:30-31) -/
  | exiting
  | ended
deriving DecidableEq, Repr

structure St where
  main : MainPc := .waiting false
  rib : RibPc := .start
  /-- the pointer `ribIo` is not null -/
  ribIo : Bool := false
  /-- the `io_context` of the RIB thread exists -/
  ribAlive : Bool := false
  /-- `g_ribIoCtx` was set (global.cpp:82-86) -/
  ribSet : Bool := false
  mainStopped : Bool := false
  ribStopped : Bool := false
  retval : Nat := 0
  mainThrew : Option Exc := none
  ribThrew : Bool := false
deriving DecidableEq, Repr

/-- What happens in the turn of the main thread, where there is a choice. -/
inductive MainDoes where
  /-- it goes on: a handler ends -/
  | go
  /-- it wakes up for no reason -/
  | wake
  /-- the handler throws -/
  | throw (e : Exc)
  /-- the handler is that of SIGINT or SIGTERM (main.cpp:191-201) -/
  | terminate
  /-- the handler posts a function to the RIB thread (global.cpp:69-74) -/
  | post
deriving DecidableEq, Repr

inductive RibDoes where
  | go
  | throw (e : Exc)
  /-- there is nothing left to do -/
  | idle
  /-- the handler posts a function to the main thread (global.cpp:62-67) -/
  | post
deriving DecidableEq, Repr

inductive Turn where
  | main (d : MainDoes)
  | rib (d : RibDoes)
deriving DecidableEq, Repr

inductive Fault where
  /-- an exception leaves the function of a thread: `std::terminate` -/
  | uncaught
  /-- a failed assertion of global.cpp or main.cpp -/
  | assertion
  /-- `stop` of a destroyed `io_context` -/
  | stopDangling
  /-- a function is posted to a destroyed `io_context` -/
  | postDangling
deriving DecidableEq, Repr

/-- A turn of the main thread (main.cpp:149-179). -/
def mainStep (s : St) (d : MainDoes) : Except Fault St :=
  match s.main with
  | .waiting asleep =>
    if asleep = true ∧ d ≠ .wake then .ok s
    else if s.ribIo then .ok { s with main := .ready }
    else .ok { s with main := .waiting true }
  | .ready => .ok { s with main := .loop }
  | .loop => if s.mainStopped then .ok { s with main := .finish } else .ok { s with main := .handler }
  | .handler =>
    match d with
    | .throw e => .ok { s with main := .caught e, mainThrew := some e }
    | .terminate => .ok { s with main := .loop, mainStopped := true }
    | .post =>
      if s.ribSet = false then .error .assertion
      else if s.ribAlive = false then .error .postDangling
      else .ok { s with main := .loop }
    | _ => .ok { s with main := .loop }
  | .caught .std => .ok { s with main := .finish, retval := 1 }
  | .caught .priv => .ok { s with main := .finish, retval := 4 }
  | .finish =>
    if s.ribIo then
      if s.ribAlive = false then .error .stopDangling
      else .ok { s with main := .joining, ribStopped := true, ribIo := false }
    else .ok { s with main := .joining }
  | .joining => if s.rib = .ended then .ok { s with main := .done } else .ok s
  | .done => .ok s

/-- A turn of the RIB thread (main.cpp:122-147). -/
def ribStep (s : St) (d : RibDoes) : Except Fault St :=
  match s.rib with
  | .start => .ok { s with rib := .notify, ribIo := true, ribAlive := true, ribSet := true }
  | .notify =>
    .ok { s with rib := .setUp, main := if s.main = .waiting true then .waiting false else s.main }
  | .setUp =>
    match d with
    | .throw .std => .ok { s with rib := .failed, ribThrew := true }
    | .throw .priv => .error .uncaught
    | _ => .ok { s with rib := .loop }
  | .loop => if s.ribStopped ∨ d = .idle then .ok { s with rib := .leave } else .ok { s with rib := .handler }
  | .handler =>
    match d with
    | .throw .std => .ok { s with rib := .failed, ribThrew := true }
    | .throw .priv => .error .uncaught
    | .post => if s.main = .done then .error .postDangling else .ok { s with rib := .loop }
    | _ => .ok { s with rib := .loop }
  | .failed => .ok { s with rib := .stopMain, retval := 1 }
  | .stopMain => .ok { s with rib := .leave, mainStopped := true }
  | .leave => .ok { s with rib := .exiting, ribIo := false }
  | .exiting => .ok { s with rib := .ended, ribAlive := false }
  | .ended => .ok s

def step (s : St) : Turn → Except Fault St
  | .main d => mainStep s d
  | .rib d => ribStep s d

def runs : St → List Turn → Except Fault St
  | s, [] => .ok s
  | s, t :: l =>
    match step s t with
    | .ok s' => runs s' l
    | .error x => .error x

/-- `run` has been called, the RIB thread has been created (main.cpp:109-122). -/
def start : St := {}

end Verif.Run
