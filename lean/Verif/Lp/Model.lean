/-
Model of the link service: daemon/face/generic-link-service.cpp, lp-fragmenter.cpp, lp-reassembler.cpp, lp-reliability.cpp.

An LpPacket is modelled by its fields; encoding and decoding of LpPackets to octets is ndn-cxx and is represented by the size of the
encoding only. The clock is a number that does not change within an event. Values that depend on the outside (length of the send
queue, estimate of the retransmission timeout, square-root spacing of congestion marks) are taken from an arbitrary `Env`.
-/
import Verif.Lp.Tlv

namespace Verif.Lp

/-- Number of values of `lp::Sequence` (uint64_t). -/
abbrev W : Nat := 18446744073709551616

/-! ## LpPacket -/

/-- The NDNLPv2 fields concerning the network layer (ndn-cxx `lp::fields.hpp`; the ones used in generic-link-service.cpp:152-505). -/
structure Hdr where
  nack : Option Nat := none
  nextHop : Option Nat := none
  incoming : Option Nat := none
  cachePolicy : Option Nat := none
  mark : Option Nat := none
  nonDiscovery : Bool := false
  prefixAnn : Option Bytes := none
  pitToken : Option Bytes := none
deriving DecidableEq, Repr

/-- `lp::Packet`. -/
structure Pkt where
  seq : Option Nat := none
  fragIndex : Option Nat := none
  fragCount : Option Nat := none
  txSeq : Option Nat := none
  acks : List Nat := []
  hdr : Hdr := {}
  frag : Option Bytes := none
deriving DecidableEq, Repr

/-- Size of an optional element. -/
def optSize {α : Type} (f : α → Nat) : Option α → Nat
  | none => 0
  | some a => f a

/-- Size of the network-layer header elements. TLV-TYPEs are those of NDNLPv2: Nack 800, NackReason 801, NextHopFaceId 816,
IncomingFaceId 817, CachePolicy 820, CachePolicyType 821, CongestionMark 832, NonDiscovery 844, PrefixAnnouncement 848, PitToken 98. -/
def hdrSize (h : Hdr) : Nat :=
  optSize (fun r => tlvSize 800 (if r = 0 then 0 else tlvSize 801 (nniSize r))) h.nack +
  optSize (fun n => tlvSize 816 (nniSize n)) h.nextHop +
  optSize (fun n => tlvSize 817 (nniSize n)) h.incoming +
  optSize (fun n => tlvSize 820 (tlvSize 821 (nniSize n))) h.cachePolicy +
  optSize (fun n => tlvSize 832 (nniSize n)) h.mark +
  (if h.nonDiscovery then tlvSize 844 0 else 0) +
  optSize (fun b => tlvSize 848 b.length) h.prefixAnn +
  optSize (fun b => tlvSize 98 b.length) h.pitToken

/-- Size of all elements except Fragment. Sequence 81, FragIndex 82, FragCount 83, TxSequence 840, Ack 836. Sequence, TxSequence and Ack
are 8-octet numbers. -/
def othersSize (p : Pkt) : Nat :=
  optSize (fun _ => tlvSize 81 8) p.seq +
  optSize (fun n => tlvSize 82 (nniSize n)) p.fragIndex +
  optSize (fun n => tlvSize 83 (nniSize n)) p.fragCount +
  optSize (fun _ => tlvSize 840 8) p.txSeq +
  p.acks.length * tlvSize 836 8 +
  hdrSize p.hdr

/-- The packet consists of a Fragment only: it is encoded as the bare network packet (`lp::Packet::wireEncode`). -/
def isBare (p : Pkt) : Bool := p.frag.isSome && decide ({ p with frag := none } = ({} : Pkt))

/-- Size of the encoding. LpPacket is TLV-TYPE 100, Fragment is 80. -/
def wireSize (p : Pkt) : Nat :=
  if isBare p then optSize List.length p.frag
  else tlvSize 100 (othersSize p + optSize (fun b => tlvSize 80 b.length) p.frag)

/-! ## Fragmenter -/

/-- lp-fragmenter.cpp:44-47 -/
abbrev maxSingleFragOverhead : Nat := (1 + 9) + (1 + 1 + 8) + (1 + 9)

/-- lp-fragmenter.cpp:52-57 -/
abbrev maxFragOverhead : Nat := (1 + 9) + (1 + 1 + 8) + (1 + 1 + 8) + (1 + 1 + 8) + (1 + 9)

/-- What can go wrong besides an ordinary return. `assert` stands for a failed BOOST_ASSERT, the use of an invalid iterator and a loop that
does not end; `rangeExceeded n` for the `std::length_error` thrown in lp-reliability.cpp:224-226, when `n` TxSequences had been assigned
before. -/
inductive Fault where
  | assert
  | rangeExceeded (n : Nat)
deriving DecidableEq, Repr

/-- The chunks of the payload after the first one: the loop of lp-fragmenter.cpp:114-125 with `payloadSize = size`. The recursion is on
an upper bound of the number of chunks. -/
def chunks (size : Nat) : Nat → Bytes → List Bytes
  | 0, _ => []
  | n + 1, b => if b = [] then [] else b.take size :: chunks size n (b.drop size)

/-- The packets of lp-fragmenter.cpp:114-125, counted from `i`, for the chunks of the payload. The first one keeps the other fields of the
packet (line 110). -/
def numbered (count : Nat) (first : Pkt) : Nat → List Bytes → List Pkt
  | _, [] => []
  | i, c :: cs => { first with fragIndex := some i, fragCount := some count, frag := some c } :: numbered count {} (i + 1) cs

/-- `LpFragmenter::fragmentPacket` (lp-fragmenter.cpp:65-129): `none` for a packet that cannot be fragmented. -/
def fragmentPacket (nMaxFragments : Nat) (p : Pkt) (mtu : Nat) : Except Fault (Option (List Pkt)) :=
  match p.frag with
  | none => .error .assert
  | some net =>
    if p.fragIndex.isSome || p.fragCount.isSome then .error .assert
    else if maxSingleFragOverhead + wireSize p ≤ mtu then .ok (some [p])
    else
      let firstHeaderSize := othersSize p
      if maxFragOverhead + firstHeaderSize + 1 > mtu then .ok none
      else
        let firstPayload := min net.length (mtu - firstHeaderSize - maxFragOverhead)
        let payload := mtu - maxFragOverhead
        let count := 1 + (net.length - firstPayload) / payload + (if (net.length - firstPayload) % payload ≠ 0 then 1 else 0)
        if count > nMaxFragments then .ok none
        else
          let frags := numbered count p 0
            (if net = [] then [] else net.take firstPayload :: chunks payload net.length (net.drop firstPayload))
          if frags.any (fun f => decide (wireSize f > mtu)) then .error .assert
          else if frags.length ≠ count then .error .assert
          else .ok (some frags)

/-! ## State of a link service -/

/-- `GenericLinkService::Options` (generic-link-service.hpp) with those of the fragmenter, reassembler and reliability. `overrideMtu`:
`none` is the default, the largest `ssize_t`. -/
structure Opts where
  allowLocalFields : Bool := false
  allowFragmentation : Bool := false
  allowReassembly : Bool := false
  allowCongestionMarking : Bool := false
  allowSelfLearning : Bool := true
  relEnabled : Bool := false
  maxRetx : Nat := 3
  lossThreshold : Nat := 3
  congThreshold : Nat := 65536
  markBase : Nat := 100
  fragMax : Nat := 400
  reasmMax : Nat := 400
  reasmTimeout : Nat := 500
  overrideMtu : Option Nat := none
deriving DecidableEq, Repr

/-- The outside of the link service. `qlen n` is what `Transport::getSendQueueLength` returns at the n-th check (negative: not supported);
`rto n` is the estimate of the retransmission timeout at the n-th query (ndn-cxx `RttEstimator`); `markGap n` is the distance of the
congestion marks after n marks (generic-link-service.cpp:271-273, computed with floating-point numbers); `okInterest` and `okData` say
which octets ndn-cxx decodes as Interest and Data; `mtu` is the MTU of the transport, `none` for MTU_UNLIMITED. -/
structure Env where
  qlen : Nat → Int
  rto : Nat → Nat
  markGap : Nat → Nat
  okInterest : Bytes → Bool
  okData : Bytes → Bool
  mtu : Option Nat

/-- (remote endpoint, message identifier), lp-reassembler.hpp `Key`. -/
abbrev Key := Nat × Nat

/-- `LpReassembler::PartialPacket` (lp-reassembler.hpp). A slot holds a packet once received (the code tests for its Sequence, which every
received one has). `deadline` is the time of the drop timer. -/
structure Partial where
  fragCount : Nat
  frags : List (Option Pkt)
  nReceived : Nat
  deadline : Option Nat
deriving Repr

/-- `LpReliability::UnackedFrag` (lp-reliability.hpp). `net` is the network packet it belongs to. Each stored fragment has a running RTO
timer, not modelled separately: deleting the fragment cancels it. `order` is a ghost: how many TxSequences had been assigned before. -/
structure UFrag where
  pkt : Pkt
  retx : Nat
  nGreater : Nat
  net : Nat
  order : Nat
deriving DecidableEq, Repr

/-- `LpReliability::NetPkt` (lp-reliability.hpp); iterators are represented by the keys they point to. -/
structure NetPkt where
  frags : List Nat := []
  pkt : Pkt := {}
  isInterest : Bool := false
  didRetx : Bool := false

/-- What a decoded network packet carries besides its octets: the tags set by decodeInterest, decodeData and decodeNack. -/
structure Tags where
  nextHop : Option Nat := none
  cachePolicy : Option Nat := none
  mark : Option Nat := none
  nonDiscovery : Bool := false
  prefixAnn : Option Bytes := none
  pitToken : Option Bytes := none
deriving DecidableEq, Repr

/-- Observable effects, in order. `queued id isInterest net seqs` says that a network packet
is handed to LpReliability as fragments with these Sequences. -/
inductive Out where
  /-- octets handed to the transport -/
  | frame (p : Pkt)
  /-- dropped by the MTU check: ++nOutOverMtu -/
  | overMtu (p : Pkt)
  /-- ++nFragmentationErrors -/
  | fragError
  /-- ++nCongestionMarked -/
  | marked
  | queued (id : Nat) (isInterest : Bool) (net : Option Bytes) (seqs : List Nat)
  /-- ++nAcknowledged -/
  | acknowledged (id : Nat)
  /-- ++nRetransmitted -/
  | retransmitted (id : Nat)
  /-- ++nRetxExhausted -/
  | exhausted (id : Nat)
  /-- onDroppedInterest, with the Interest -/
  | droppedInterest (id : Nat) (interest : Option Bytes)
  /-- ++nDuplicateSequence -/
  | duplicate
  /-- ++nInLpInvalid -/
  | lpInvalid
  /-- ++nInNetInvalid -/
  | netInvalid
  /-- ++nReassemblyTimeouts -/
  | reassemblyTimeout (k : Key)
  /-- a network packet comes out of reassembly, with its first fragment -/
  | reassembled (endpoint : Nat) (net : Bytes) (first : Pkt)
  | interest (net : Bytes) (t : Tags)
  | data (net : Bytes) (t : Tags)
  | nack (net : Bytes) (reason : Nat) (t : Tags)
deriving DecidableEq, Repr

structure St where
  opts : Opts
  now : Nat
  lastSeq : Nat
  nextMark : Option Nat
  nMarked : Nat
  parts : Key → Option Partial
  unacked : List (Nat × UFrag)
  first : Option Nat
  lastTx : Nat
  nTx : Nat
  nets : Nat → NetPkt
  nNet : Nat
  ackQueue : List Nat
  recent : List (Nat × Nat)
  recentQ : List Nat
  idleTimer : Bool
  nCheck : Nat
  nRto : Nat
  out : List Out

/-- A new link service (generic-link-service.cpp:42-51, lp-reliability.cpp:39-47). In NFD `seq0 = 2^64 - 2` (generic-link-service.hpp) and
`tx0 = 2^64 - 1`. -/
def init (o : Opts) (seq0 tx0 : Nat) : St where
  opts := o
  now := 0
  lastSeq := seq0
  nextMark := none
  nMarked := 0
  parts := fun _ => none
  unacked := []
  first := none
  lastTx := tx0
  nTx := 0
  nets := fun _ => {}
  nNet := 0
  ackQueue := []
  recent := []
  recentQ := []
  idleTimer := false
  nCheck := 0
  nRto := 0
  out := []

def emit (s : St) (o : Out) : St := { s with out := s.out ++ [o] }

/-- `getEffectiveMtu` (generic-link-service.cpp:63-68); `none` for MTU_UNLIMITED, which is negative and so the least. -/
def effMtu (env : Env) (o : Opts) : Option Nat :=
  env.mtu.map (fun m => match o.overrideMtu with
    | none => m
    | some n => min n m)

/-! ## Sending one LpPacket -/

/-- `checkCongestionLevel` (generic-link-service.cpp:243-285). `time_point::max()` is `none`. -/
def checkCongestion (env : Env) (s : St) (p : Pkt) : St × Pkt :=
  let q := env.qlen s.nCheck
  let s := { s with nCheck := s.nCheck + 1 }
  if q < 0 then (s, p)
  else if q > (s.opts.congThreshold : Int) then
    match s.nextMark with
    | none => ({ s with nextMark := some (s.now + s.opts.markBase) }, p)
    | some t =>
      if s.now ≥ t then
        let n := s.nMarked + 1
        (emit { s with nMarked := n, nextMark := some (t + env.markGap n) } .marked,
          { p with hdr := { p.hdr with mark := some 1 } })
      else (s, p)
  else if s.nextMark ≠ none then ({ s with nextMark := none, nMarked := 0 }, p)
  else (s, p)

/-- The size of an Ack (lp-reliability.cpp:202-204). -/
abbrev ackSize : Nat := varSize 836 + varSize 8 + 8

/-- The loop of lp-reliability.cpp:200-216: how many of the queued Acks are attached, given the remaining space. -/
def ackFit : Int → List Nat → Nat
  | _, [] => 0
  | room, _ :: q => if (ackSize : Int) > room then 0 else 1 + ackFit (room - ackSize) q

/-- `LpReliability::piggyback` (lp-reliability.cpp:187-217). 8800 is ndn::MAX_NDN_PACKET_SIZE. -/
def piggyback (s : St) (mtu : Option Nat) (p : Pkt) : Except Fault (St × Pkt) :=
  if isBare p then .error .assert
  else
    let pktSize : Int := wireSize p
    let reserved : Int := (varSize 8800 : Int) - (varSize (wireSize p) : Int)
    let room : Int := (match mtu with | none => 8800 | some m => (m : Int)) - reserved - pktSize
    let n := ackFit room s.ackQueue
    .ok ({ s with ackQueue := s.ackQueue.drop n }, { p with acks := p.acks ++ s.ackQueue.take n })

/-- generic-link-service.cpp:95-97 -/
def attachAcks (s : St) (mtu : Option Nat) (p : Pkt) : Except Fault (St × Pkt) :=
  if s.opts.relEnabled then piggyback s mtu p else .ok (s, p)

/-- generic-link-service.cpp:99-101 -/
def attachMark (env : Env) (s : St) (p : Pkt) : St × Pkt :=
  if s.opts.allowCongestionMarking then checkCongestion env s p else (s, p)

/-- generic-link-service.cpp:103-109 -/
def transmit (mtu : Option Nat) (s : St) (p : Pkt) : St :=
  if mtu.any (fun m => decide (wireSize p > m)) then emit s (.overMtu p) else emit s (.frame p)

/-- `sendLpPacket` (generic-link-service.cpp:91-110). -/
def sendLp (env : Env) (s : St) (p : Pkt) : Except Fault St :=
  let mtu := effMtu env s.opts
  match attachAcks s mtu p with
  | .error e => .error e
  | .ok r =>
    let r := attachMark env r.1 r.2
    .ok (transmit mtu r.1 r.2)

/-- The loop at generic-link-service.cpp:237-239. -/
def sendAll (env : Env) (s : St) : List Pkt → Except Fault St
  | [] => .ok s
  | p :: ps => do
    let s ← sendLp env s p
    sendAll env s ps

/-! ## Reliability -/

/-- `std::map::find` on m_unackedFrags. -/
def look (m : List (Nat × UFrag)) (k : Nat) : Option UFrag := (m.find? (fun e => e.1 == k)).map (·.2)

/-- `try_emplace` on m_unackedFrags, a map ordered by key. -/
def put (k : Nat) (u : UFrag) : List (Nat × UFrag) → List (Nat × UFrag)
  | [] => [(k, u)]
  | e :: m => if k < e.1 then (k, u) :: e :: m else if k = e.1 then e :: m else e :: put k u m

def del (m : List (Nat × UFrag)) (k : Nat) : List (Nat × UFrag) := m.filter (fun e => e.1 != k)

/-- `assignTxSequence` (lp-reliability.cpp:219-228): the new number; an invalid `m_firstUnackedFrag` is a fault. -/
def assignTx (s : St) : Except Fault (St × Nat) :=
  let tx := (s.lastTx + 1) % W
  let s := { s with lastTx := tx, nTx := s.nTx + 1 }
  if s.unacked = [] then .ok (s, tx)
  else match s.first with
    | none => .error .assert
    | some f =>
      if (look s.unacked f).isNone then .error .assert
      else if tx = f then .error (.rangeExceeded (s.nTx - 1))
      else .ok (s, tx)

/-- Stores a fragment under the TxSequence `tx` (lp-reliability.cpp:79-96). -/
def storeFrag (s : St) (id : Nat) (f : Pkt) (tx : Nat) (order : Nat) : St :=
  let m := put tx { pkt := f, retx := 0, nGreater := 0, net := id, order } s.unacked
  { s with
    unacked := m
    first := if m.length = 1 then m.head?.map (·.1) else s.first
    nets := fun i => if i = id then { s.nets id with frags := (s.nets id).frags ++ [tx] } else s.nets i }

/-- The loop of lp-reliability.cpp:71-97. Returns the fragments with their TxSequences. -/
def queueFrags (s : St) (id : Nat) : List Pkt → Except Fault (St × List Pkt)
  | [] => .ok (s, [])
  | f :: fs =>
    if f.seq = none then .error .assert
    else do
      let r ← assignTx s
      let f := { f with txSeq := some r.2 }
      let r' ← queueFrags (storeFrag r.1 id f r.2 s.nTx) id fs
      .ok (r'.1, f :: r'.2)

/-- `handleOutgoing` (lp-reliability.cpp:61-98). -/
def handleOutgoing (s : St) (frags : List Pkt) (p : Pkt) (isInterest : Bool) : Except Fault (St × List Pkt) :=
  queueFrags
    { s with
      nNet := s.nNet + 1
      nets := fun i => if i = s.nNet then { frags := [], pkt := p, isInterest } else s.nets i
      out := s.out ++ [.queued s.nNet isInterest p.frag (frags.filterMap (·.seq))] }
    s.nNet frags

/-- The key an iterator moves to after an element with key `k` is erased: the next one in the map, or the first if there is none
(lp-reliability.cpp:386-392); `none` if the map is empty. -/
def after (m : List (Nat × UFrag)) (k : Nat) : Option Nat :=
  match m.find? (fun e => e.1 > k) with
  | some e => some e.1
  | none => m.head?.map (·.1)

/-- `deleteUnackedFrag` (lp-reliability.cpp:379-398). -/
def deleteUnacked (s : St) (k : Nat) : Except Fault St :=
  match s.first with
  | none => .error .assert
  | some f =>
    if (look s.unacked f).isNone || (look s.unacked k).isNone then .error .assert
    else
      let m := del s.unacked k
      if m = [] then .ok { s with unacked := m, first := none }
      else if f = k then .ok { s with unacked := m, first := after m k }
      else .ok { s with unacked := m }

/-- The map in the order of the loop at lp-reliability.cpp:249-252: from `m_firstUnackedFrag` to the end, then from the beginning. -/
def window (m : List (Nat × UFrag)) (f : Nat) : List (Nat × UFrag) :=
  m.filter (fun e => e.1 ≥ f) ++ m.filter (fun e => e.1 < f)

/-- `findLostLpPackets` (lp-reliability.cpp:244-269): increments the counters of the fragments before the acknowledged one, and returns
those that reach the threshold. -/
def findLost (s : St) (k : Nat) : Except Fault (St × List Nat) :=
  match s.first with
  | none => .error .assert
  | some f =>
    if (look s.unacked f).isNone || (look s.unacked k).isNone then .error .assert
    else
      let before := ((window s.unacked f).takeWhile (fun e => e.1 != k)).map (·.1)
      let m := s.unacked.map (fun e => if e.1 ∈ before then (e.1, { e.2 with nGreater := e.2.nGreater + 1 }) else e)
      .ok ({ s with unacked := m },
        before.filter (fun t => (look m t).any (fun u => decide (u.nGreater ≥ s.opts.lossThreshold))))

/-- `onLpPacketAcknowledged` (lp-reliability.cpp:354-376). The order of NetPkt's list is not kept: the acknowledged fragment is removed
from it, where the code moves the last one into its place. -/
def onAcknowledged (s : St) (k : Nat) : Except Fault St :=
  match look s.unacked k with
  | none => .error .assert
  | some u =>
    let n := s.nets u.net
    if k ∉ n.frags then .error .assert
    else
      deleteUnacked
        { s with
          nets := fun i => if i = u.net then { n with frags := n.frags.erase k } else s.nets i
          out := s.out ++
            (if n.frags.erase k = [] then [if n.didRetx then .retransmitted u.net else .acknowledged u.net] else []) }
        k

/-- The loop of lp-reliability.cpp:294-299: deletes the given fragments, except `k`. -/
def deleteOthers (s : St) (k : Nat) : List Nat → Except Fault (St × List Nat)
  | [] => .ok (s, [])
  | t :: ts =>
    if t = k then deleteOthers s k ts
    else do
      let s ← deleteUnacked s t
      let r ← deleteOthers s k ts
      .ok (r.1, t :: r.2)

/-- lp-reliability.cpp:291-314: too many retransmissions. -/
def giveUp (s : St) (k : Nat) (u : UFrag) : Except Fault (St × List Nat) := do
  let n := s.nets u.net
  let r ← deleteOthers s k n.frags
  if n.isInterest && n.pkt.frag.isNone then .error .assert
  else do
    let s ← deleteUnacked
      { r.1 with out := r.1.out ++ .exhausted u.net :: (if n.isInterest then [.droppedInterest u.net n.pkt.frag] else []) } k
    .ok (s, r.2 ++ [k])

/-- lp-reliability.cpp:316-349: the fragment is sent again with a new TxSequence. -/
def resend (env : Env) (s : St) (k : Nat) (u : UFrag) : Except Fault (St × List Nat) := do
  let n := s.nets u.net
  let r ← assignTx s
  let p := { u.pkt with txSeq := some r.2 }
  if k ∉ n.frags then .error .assert
  else do
    let s' ← deleteUnacked
      { r.1 with
        unacked := put r.2 { pkt := p, retx := u.retx + 1, nGreater := 0, net := u.net, order := s.nTx } r.1.unacked
        nets := fun i => if i = u.net then { n with didRetx := true, frags := n.frags.replace k r.2 } else s.nets i } k
    let s' ← sendLp env s' p
    .ok (s', [k])

/-- `onLpPacketLost` (lp-reliability.cpp:271-352): returns the TxSequences removed. -/
def onLost (env : Env) (s : St) (k : Nat) : Except Fault (St × List Nat) :=
  match look s.unacked k with
  | none => .error .assert
  | some u => if u.retx ≥ s.opts.maxRetx then giveUp s k u else resend env s k u

/-- The loop of lp-reliability.cpp:149-156. -/
def handleLost (env : Env) (s : St) (removed : List Nat) : List Nat → Except Fault St
  | [] => .ok s
  | t :: ts =>
    if t ∈ removed then handleLost env s removed ts
    else do
      let r ← onLost env s t
      handleLost env r.1 (removed ++ r.2) ts

/-- One round of the loop of lp-reliability.cpp:109-157: one Ack. -/
def processAck (env : Env) (s : St) (k : Nat) : Except Fault St :=
  if (look s.unacked k).isNone then .ok s
  else do
    let r ← findLost s k
    let s ← onAcknowledged r.1 k
    handleLost env s [] r.2

def processAcks (env : Env) (s : St) : List Nat → Except Fault St
  | [] => .ok s
  | k :: ks => do
    let s ← processAck env s k
    processAcks env s ks

/-- When the Sequence was received, according to m_recentRecvSeqs. -/
def recvTime (m : List (Nat × Nat)) (q : Nat) : Option Nat := (m.find? (fun e => e.1 == q)).map (·.2)

/-- The loop of lp-reliability.cpp:172-176. `operator[]` on the map of received Sequences yields the clock's epoch for a missing one, and
leaves it in the map. -/
def expireRecent (now rto : Nat) (m : List (Nat × Nat)) : List Nat → List (Nat × Nat) × List Nat
  | [] => (m, [])
  | q :: qs =>
    let t := (recvTime m q).getD 0
    let m := if (recvTime m q).isNone then m ++ [(q, 0)] else m
    if now > t + rto then expireRecent now rto (m.filter (fun e => e.1 != q)) qs else (m, q :: qs)

/-- lp-reliability.cpp:167-179: whether the Sequence is a duplicate. -/
def noteSeq (env : Env) (s : St) (q : Nat) : St × Bool :=
  let dup := (recvTime s.recent q).isSome
  let rto := env.rto s.nRto
  let r := expireRecent s.now rto s.recent s.recentQ
  ({ s with
      nRto := s.nRto + 1
      recent := if (recvTime r.1 q).isNone then r.1 ++ [(q, s.now)] else r.1
      recentQ := r.2 ++ [q] },
    dup)

/-- lp-reliability.cpp:159-183: queues an Ack for a packet with a Fragment and a TxSequence; false for a duplicate. -/
def noteFrame (env : Env) (s : St) (p : Pkt) : St × Bool :=
  match p.frag, p.txSeq with
  | some _, some tx =>
    let s := { s with ackQueue := s.ackQueue ++ [tx], idleTimer := true }
    match p.seq with
    | none => (s, true)
    | some q => ((noteSeq env s q).1, !(noteSeq env s q).2)
  | _, _ => (s, true)

/-- `processIncomingPacket` (lp-reliability.cpp:100-184): false for a duplicate. -/
def processIncoming (env : Env) (s : St) (p : Pkt) : Except Fault (St × Bool) := do
  let s ← processAcks env s p.acks
  .ok (noteFrame env s p)

/-- The callback of lp-reliability.cpp:237-241. If an IDLE packet takes no Ack, the loop does not end. The recursion is on the number of
queued Acks. -/
def flushAcks (env : Env) : Nat → St → Except Fault St
  | 0, s => if s.ackQueue = [] then .ok s else .error .assert
  | n + 1, s =>
    if s.ackQueue = [] then .ok s
    else do
      let s' ← sendLp env s {}
      if s'.ackQueue.length < s.ackQueue.length then flushAcks env n s' else .error .assert

/-! ## Sending network packets -/

inductive Kind where
  | interest
  | data
  | nack (reason : Nat)
deriving DecidableEq, Repr

/-- The tags of a network packet to be sent, as far as encodeLpFields looks at them. -/
structure SendTags where
  incoming : Option Nat := none
  mark : Option Nat := none
  nonDiscovery : Bool := false
  prefixAnn : Option Bytes := none
  pitToken : Option Bytes := none
deriving DecidableEq, Repr

/-- `encodeLpFields` (generic-link-service.cpp:151-182) on a new LpPacket, with the Nack header of doSendNack (136). -/
def encodeFields (o : Opts) (k : Kind) (t : SendTags) : Hdr where
  nack := match k with | .nack r => some r | _ => none
  incoming := if o.allowLocalFields then t.incoming else none
  mark := t.mark
  nonDiscovery := o.allowSelfLearning && t.nonDiscovery
  prefixAnn := if o.allowSelfLearning then t.prefixAnn else none
  pitToken := t.pitToken

/-- lp-reliability.hpp:51-53 -/
abbrev reservedHeaderSpace : Nat := varSize 840 + varSize 8 + 8

/-- generic-link-service.cpp:38-40 -/
abbrev congestionMarkSize : Nat := varSize 832 + varSize 8 + nniSize 0xFFFFFFFFFFFFFFFF

/-- `assignSequences` (generic-link-service.cpp:143-149). -/
def assignSeqs (last : Nat) : List Pkt → List Pkt × Nat
  | [] => ([], last)
  | p :: ps =>
    let q := (last + 1) % W
    let (ps, last) := assignSeqs q ps
    ({ p with seq := some q } :: ps, last)

/-- The MTU given to the fragmenter: generic-link-service.cpp:187-200. -/
def netMtu (env : Env) (o : Opts) : Except Fault (Option Nat) :=
  match effMtu env o with
  | none => .ok none
  | some m =>
    let reserve := (if o.relEnabled then reservedHeaderSpace else 0) + (if o.allowCongestionMarking then congestionMarkSize else 0)
    if reserve > m then .error .assert else .ok (some (m - reserve))

/-- The packets to send: generic-link-service.cpp:202-219. -/
def makeFrags (env : Env) (o : Opts) (p : Pkt) : Except Fault (Option (List Pkt)) := do
  let mtu ← netMtu env o
  if o.allowFragmentation then
    match mtu with
    | some m => fragmentPacket o.fragMax p m
    | none => .ok (some [p])
  else .ok (some [p])

/-- generic-link-service.cpp:221-239 -/
def sendFrags (env : Env) (s : St) (p : Pkt) (isInterest : Bool) (frags : List Pkt) : Except Fault St :=
  if frags.length = 1 && frags.any (fun f => f.fragIndex.isSome || f.fragCount.isSome) then .error .assert
  else if s.opts.relEnabled || decide (frags.length > 1) then
    let r := assignSeqs s.lastSeq frags
    if s.opts.relEnabled && r.1.head?.any (fun f => f.frag.isSome) then do
      let r ← handleOutgoing { s with lastSeq := r.2 } r.1 p isInterest
      sendAll env r.1 r.2
    else sendAll env { s with lastSeq := r.2 } r.1
  else sendAll env s frags

/-- `sendNetPacket` (generic-link-service.cpp:184-240). -/
def sendNet (env : Env) (s : St) (p : Pkt) (isInterest : Bool) : Except Fault St :=
  match makeFrags env s.opts p with
  | .error e => .error e
  | .ok none => .ok (emit s .fragError)
  | .ok (some frags) => sendFrags env s p isInterest frags

/-- doSendInterest, doSendData, doSendNack (generic-link-service.cpp:112-141). -/
def send (env : Env) (s : St) (k : Kind) (t : SendTags) (net : Bytes) : Except Fault St :=
  sendNet env s { hdr := encodeFields s.opts k t, frag := some net } (k == .interest)

/-! ## Receiving -/

/-- `decodeInterest`, `decodeNack`, `decodeData` and `decodeNetPacket` (generic-link-service.cpp:323-505): the effect of a network packet
that came out of reassembly. Interest is TLV-TYPE 5 and Data is 6. -/
def decodeNet (env : Env) (o : Opts) (net : Bytes) (h : Hdr) : List Out :=
  match parseBlock net with
  | none => [.netInvalid]
  | some e =>
    if e.type = 5 then
      match h.nack with
      | some reason =>
        if !env.okInterest net then [.netInvalid]
        else if h.nextHop.isSome then [.netInvalid]
        else if h.cachePolicy.isSome then [.netInvalid]
        else if h.nonDiscovery then [.netInvalid]
        else if h.prefixAnn.isSome then [.netInvalid]
        else [.nack net reason { mark := h.mark }]
      | none =>
        if !env.okInterest net then [.netInvalid]
        else if h.nextHop.isSome && !o.allowLocalFields then []
        else if h.cachePolicy.isSome then [.netInvalid]
        else if h.prefixAnn.isSome then [.netInvalid]
        else [.interest net { nextHop := h.nextHop, mark := h.mark, nonDiscovery := h.nonDiscovery && o.allowSelfLearning,
                              pitToken := h.pitToken }]
    else if e.type = 6 then
      if !env.okData net then [.netInvalid]
      else if h.nack.isSome then [.netInvalid]
      else if h.nextHop.isSome then [.netInvalid]
      else if h.nonDiscovery then [.netInvalid]
      else [.data net { cachePolicy := h.cachePolicy, mark := h.mark,
                        prefixAnn := if o.allowSelfLearning then h.prefixAnn else none }]
    else [.netInvalid]

/-- What receiveFragment returns: nothing, a network packet with its first fragment, or an exception of ndn-cxx. -/
inductive Reasm where
  | nothing
  | packet (net : Bytes) (first : Pkt)
  | error
deriving DecidableEq, Repr

def setPart (s : St) (k : Key) (p : Option Partial) : St :=
  { s with parts := fun k' => if k' = k then p else s.parts k' }

/-- lp-reassembler.cpp:86-117 and `doReassembly` (lp-reassembler.cpp:121-139): a fragment is added to the packet with key `k`, which is
created if it does not exist. -/
def addFragment (s : St) (k : Key) (i n : Nat) (p : Pkt) : St × Reasm :=
  let pp := (s.parts k).getD { fragCount := n, frags := List.replicate n none, nReceived := 0, deadline := none }
  if n ≠ pp.fragCount then (s, .nothing)
  else if pp.frags[i]? ≠ some none then (s, .nothing)
  else
    let pp := { pp with frags := pp.frags.set i (some p), nReceived := pp.nReceived + 1 }
    if pp.nReceived = pp.fragCount then
      let net := (pp.frags.map (fun f => (f.bind (·.frag)).getD [])).flatten
      if (parseBlock net).isSome then (setPart s k none, .packet net ((pp.frags.head?.getD none).getD {}))
      else (setPart s k (some pp), .error)
    else (setPart s k (some { pp with deadline := some (s.now + s.opts.reasmTimeout) }), .nothing)

/-- `receiveFragment` (lp-reassembler.cpp:44-119). -/
def receiveFragment (s : St) (endpoint : Nat) (p : Pkt) : St × Reasm :=
  let fragIndex := p.fragIndex.getD 0
  let fragCount := p.fragCount.getD 1
  let frag := p.frag.getD []
  if fragIndex ≥ fragCount then (s, .nothing)
  else if fragCount > s.opts.reasmMax then (s, .nothing)
  else if fragIndex = 0 ∧ fragCount = 1 then (s, if (parseBlock frag).isSome then .packet frag p else .error)
  else match p.seq with
    | none => (s, .nothing)
    | some q => addFragment s (endpoint, (q + W - fragIndex % W) % W) fragIndex fragCount p

/-- generic-link-service.cpp:301-315: a packet that passed LpReliability. -/
def accept (env : Env) (s : St) (endpoint : Nat) (p : Pkt) : St :=
  if p.frag.isNone then s
  else if (p.fragIndex.isSome || p.fragCount.isSome) && !s.opts.allowReassembly then s
  else
    let r := receiveFragment s endpoint p
    match r.2 with
    | .nothing => r.1
    | .error => emit r.1 .lpInvalid
    | .packet net first =>
      { r.1 with out := r.1.out ++ .reassembled endpoint net first :: decodeNet env r.1.opts net first.hdr }

/-- `doReceivePacket` (generic-link-service.cpp:287-321). -/
def receive (env : Env) (s : St) (endpoint : Nat) (p : Pkt) : Except Fault St :=
  if s.opts.relEnabled then
    match processIncoming env s p with
    | .error e => .error e
    | .ok r => .ok (if r.2 then accept env r.1 endpoint p else emit r.1 .duplicate)
  else .ok (accept env s endpoint p)

/-! ## Events -/

inductive Event where
  /-- the network layer sends a packet -/
  | send (k : Kind) (t : SendTags) (net : Bytes)
  /-- the transport receives an LpPacket (or a bare packet, which is an LpPacket with only a Fragment) -/
  | receive (endpoint : Nat) (p : Pkt)
  /-- the RTO timer of the fragment with this TxSequence fires -/
  | rto (tx : Nat)
  /-- the idle timer of LpReliability fires -/
  | idle
  /-- the drop timer of a partially received packet fires -/
  | dropTimer (k : Key)
  /-- time passes -/
  | tick (d : Nat)
  /-- management changes the options (generic-link-service.cpp:53-60) -/
  | setOptions (o : Opts)
deriving DecidableEq, Repr

/-- `LpReliability::setOptions` (lp-reliability.cpp:49-59): disabling reliability cancels the idle timer. -/
def setOptions (s : St) (o : Opts) : St :=
  { s with opts := o, idleTimer := s.idleTimer && !(s.opts.relEnabled && !o.relEnabled) }

/-- `timeoutPartialPacket` (lp-reassembler.cpp:141-151), called when the drop timer is due. -/
def dropPartial (s : St) (k : Key) : St :=
  match s.parts k with
  | none => s
  | some pp =>
    if pp.deadline.any (fun d => decide (d ≤ s.now)) then emit (setPart s k none) (.reassemblyTimeout k) else s

def step (env : Env) (s : St) : Event → Except Fault St
  | .send k t net => send env s k t net
  | .receive ep p => receive env s ep p
  | .rto tx =>
    if (look s.unacked tx).isNone then .ok s
    else do
      let r ← onLost env s tx
      .ok r.1
  | .idle => if s.idleTimer then flushAcks env s.ackQueue.length { s with idleTimer := false } else .ok s
  | .dropTimer k => .ok (dropPartial s k)
  | .tick d => .ok { s with now := s.now + d }
  | .setOptions o => .ok (setOptions s o)

def run (env : Env) (s : St) : List Event → Except Fault St
  | [] => .ok s
  | e :: es => do
    let s ← step env s e
    run env s es

end Verif.Lp
