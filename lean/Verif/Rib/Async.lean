import Verif.Rib.Model

/-
The queue of RIB updates and the FIB commands in flight (rib.cpp:328-449, fib-updater.cpp:45-62, 173-294). The answers to commands come in any order;
what the forwarder does with a command is not part of this model, so any answer is possible. A callback of the RIB manager does not call the RIB again
(RibManager::beginRibUpdate, rib-manager.cpp:159-182, schedules a fetch and calls what sends the response).
-/
namespace Verif.Rib.Async

/-- A batch: its number, and its only update (rib.cpp:395-396). -/
abbrev Batch := Nat × Update

/-- A FIB command in flight: the FIB update it was made for, whether it is AddNextHop, the batch whose callbacks it carries, and the number of timeouts. -/
structure Cmd where
  upd : FibUpd
  adding : Bool
  batch : Batch
  tries : Nat
deriving DecidableEq, Repr

structure St where
  rib : Rib
  /-- m_updateBatches -/
  queue : List Batch
  /-- m_isUpdateInProgress -/
  busy : Bool
  /-- m_batchFaceId -/
  face : Nat
  /-- m_updatesForBatchFaceId -/
  batchUpds : List FibUpd
  /-- m_updatesForNonBatchFaceId -/
  otherUpds : List FibUpd
  /-- m_inheritedRoutes of the FIB updater -/
  inherited : List (Bool × Name × Route)
  inflight : List Cmd
  /-- calls of the success or failure callback of the RIB manager -/
  reports : List (Nat × Bool)
  /-- all updates submitted so far; a batch's number is its position here -/
  submitted : List Update
deriving DecidableEq, Repr

def init : St := ⟨Rib.init, [], false, 0, [], [], [], [], [], []⟩

/-- `sendUpdates` (fib-updater.cpp:173-190). -/
def send (s : St) (b : Batch) (l : List FibUpd) : St := { s with inflight := s.inflight ++ l.map (fun u => ⟨u, u.adding, b, 0⟩) }

/-- `onFibUpdateSuccess` (rib.cpp:407-435) up to the last line. -/
def succeed (s : St) (b : Batch) : Except Fault St :=
  match commit s.rib b.2 s.inherited with
  | .error f => .error f
  | .ok r => .ok { s with rib := r, busy := false, reports := s.reports ++ [(b.1, true)] }

/-- `onFibUpdateFailure` (rib.cpp:437-449) up to the last line. -/
def fail (s : St) (b : Batch) : St := { s with busy := false, reports := s.reports ++ [(b.1, false)] }

/-- `sendBatchFromQueue` (rib.cpp:383-405) with computeAndSendFibUpdates, sendUpdatesForBatchFaceId and sendUpdatesForNonBatchFaceId
(fib-updater.cpp:45-62, 192-214). A batch that needs no commands succeeds at once, and the next one follows; the first argument bounds this. -/
def next (tie : List Route → Nat) : Nat → St → Except Fault St
  | 0, s => .ok s
  | k + 1, s =>
    if s.busy then .ok s
    else
      match s.queue with
      | [] => .ok s
      | b :: q =>
        match plan tie s.rib.table b.2 with
        | .error f => .error f
        | .ok p =>
          let s : St := { s with busy := true, queue := q, face := b.2.route.face, batchUpds := p.batch, otherUpds := p.other, inherited := p.inherited }
          if p.batch ≠ [] then .ok (send s b p.batch)
          else if p.other ≠ [] then .ok (send s b p.other)
          else
            match succeed s b with
            | .error f => .error f
            | .ok s => next tie k s

def sendBatchFromQueue (tie : List Route → Nat) (s : St) : Except Fault St := next tie (s.queue.length + 1) s

/-- `onSuccess(m_inheritedRoutes)`. -/
def finish (tie : List Route → Nat) (s : St) (b : Batch) : Except Fault St :=
  match succeed s b with
  | .error f => .error f
  | .ok s => sendBatchFromQueue tie s

/-- An update for another face is done (fib-updater.cpp:255-261, 284-290). -/
def otherDone (tie : List Route → Nat) (s : St) (c : Cmd) : Except Fault St :=
  let s := { s with otherUpds := s.otherUpds.filter (· ≠ c.upd) }
  if s.otherUpds = [] then finish tie s c.batch else .ok s

inductive Code where
  | ok | timeout | faceNotFound | other
deriving DecidableEq, Repr

/-- `onUpdateSuccess` and `onUpdateError` (fib-updater.cpp:245-294). MAX_NUM_TIMEOUTS is 10. -/
def answer (tie : List Route → Nat) (s : St) (c : Cmd) : Code → Except Fault St
  | .ok =>
    if c.upd.face = s.face then
      let s := { s with batchUpds := s.batchUpds.filter (· ≠ c.upd) }
      if s.batchUpds = [] then (if s.otherUpds ≠ [] then .ok (send s c.batch s.otherUpds) else finish tie s c.batch)
      else .ok s
    else otherDone tie s c
  | .timeout => if c.tries < 10 then .ok { s with inflight := s.inflight ++ [⟨c.upd, true, c.batch, c.tries + 1⟩] } else .error .nonRecoverable
  | .faceNotFound => if c.upd.face = s.face then sendBatchFromQueue tie (fail s c.batch) else otherDone tie s c
  | .other => .error .nonRecoverable

inductive Event where
  /-- `beginApplyUpdate` (rib.cpp:328-336) with one update; `beginRemoveFace` and `beginRemoveFailedFaces` (rib.cpp:338-358) with any number. -/
  | submit (us : List Update)
  /-- a command in flight is answered -/
  | reply (i : Nat) (c : Code)
deriving DecidableEq, Repr

/-- Numbers the updates from `k` on. -/
def number (k : Nat) : List Update → List Batch
  | [] => []
  | u :: l => (k, u) :: number (k + 1) l

def step (tie : List Route → Nat) (s : St) : Event → Except Fault St
  | .submit us => sendBatchFromQueue tie { s with queue := s.queue ++ number s.submitted.length us, submitted := s.submitted ++ us }
  | .reply i c =>
    match s.inflight[i]? with
    | none => .ok s
    | some x => answer tie { s with inflight := s.inflight.eraseIdx i } x c

def run (tie : List Route → Nat) : St → List Event → Except Fault St
  | s, [] => .ok s
  | s, e :: l =>
    match step tie s e with
    | .error f => .error f
    | .ok s => run tie s l

end Verif.Rib.Async
