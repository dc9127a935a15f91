import Verif.Tables.Access

/-! The access strategy with the tables and the contents of its information together. -/
namespace Verif.Tb.Access

/-- The tables, and what the instance of the strategy has stored in them and in `m_fit` (access-strategy.hpp:171). What `st` has for a name counts only while the measurements entry of
this name holds information of the strategy's type. -/
structure Joint where
  tables : Tables
  st : St := {}

/-- `updateMeasurements` (access-strategy.cpp:232-246) in the strategy at `q` whose information has type `ty`. `insertStrategyInfo` (strategy-info-host.hpp:62-74) gives the information
that is there, or creates it without a next hop and without samples. -/
def learn (e : Env) (q : Name) (ty : Nat) (j : Joint) (data : Name) (face : FaceId) (rtt : Nat) : Option Joint :=
  (addPrefixMeasurements e q data j.tables).map (fun r =>
    let old := if ((view e j.tables r.2).meas.map (fun x => decide (ty ∈ x.info))).getD false then j.st else { j.st with mt := drop j.st.mt r.2 }
    { tables := r.1, st := update old r.2 face rtt })

/-- What `afterReceiveNewInterest` gets for an Interest (access-strategy.cpp:79) -/
def known (e : Env) (q : Name) (ty : Nat) (j : Joint) (interest : Name) : Option (Option Mt) :=
  (findPrefixMeasurements e q ty interest j.tables).map (fun r => r.bind (look j.st.mt))

inductive JEv
  /-- anything else that happens to the tables -/
  | table (op : Op)
  /-- Data that passes the checks of `beforeSatisfyInterest` -/
  | data (name : Name) (face : FaceId) (rtt : Nat)
  /-- the face is removed (access-strategy.cpp:39) -/
  | gone (face : FaceId)

/-- One event; `none` is a failed assertion. -/
def jstep (e : Env) (q : Name) (ty : Nat) (j : Joint) : JEv → Option Joint
  | .table op => (op.run e j.tables).map (fun s => { j with tables := s })
  | .data name face rtt => learn e q ty j name face rtt
  | .gone face => some { j with st := { j.st with fit := drop j.st.fit face } }

/-- A history of events -/
def jrun (e : Env) (q : Name) (ty : Nat) (j : Joint) : List JEv → Option Joint
  | [] => some j
  | ev :: l => (jstep e q ty j ev).bind (fun j => jrun e q ty j l)

end Verif.Tb.Access
