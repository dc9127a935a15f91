{"id": "C01", "title": "Content store never exceeds its capacity", "statement": "After every public operation on the Content Store (insert, lookup, erase, setLimit, a timer of the replacement policy firing), the number of stored Data packets is at most the configured limit, with either replacement policy (lru, priority_fifo).", "quantifier": "all sequences of CS operations of any length, all names, Data, clock advances and limits, both policies", "why_tests_cant": "the bound must hold after every history; a test only visits a few histories", "anchors": ["daemon/table/cs.cpp: Cs::insert, Cs::setLimit, Cs::eraseImpl", "daemon/table/cs-policy.cpp: Policy::setLimit, afterInsert", "daemon/table/cs-policy-lru.cpp: evictEntries", "daemon/table/cs-policy-priority-fifo.cpp: evictEntries, evictOne"]}
{"id": "C02", "title": "A Content Store hit is a stored, matching, fresh packet", "statement": "When Cs::find reports a hit, the returned Data was inserted earlier under exactly its name and digest and not removed since, it satisfies the Interest (name equality or prefix with CanBePrefix, or full name with implicit digest), and if the Interest has MustBeFresh its freshness period since the last insertion has not ended.", "quantifier": "all CS histories and all Interests", "why_tests_cant": "soundness ranges over every store content and every Interest", "anchors": ["daemon/table/cs.cpp: Cs::findImpl", "daemon/table/cs-entry.cpp: Entry::canSatisfy, isFresh, updateFreshUntil"]}
{"id": "C03", "title": "A Content Store lookup does not miss a usable packet", "statement": "If serving is enabled, the limit is non-zero and the store holds some Data that can satisfy the Interest, Cs::find reports a hit, and among all satisfying packets it returns the first one in canonical (name, digest) order.", "quantifier": "all CS histories and all Interests; Data names without an implicit-digest component (the code misses such packets; a counterexample is proved)", "why_tests_cant": "the range scan [prefix, successor(prefix)) is correct only if the order, the successor and the matching rules agree on every name", "anchors": ["daemon/table/cs.cpp: Cs::findImpl, Cs::findPrefixRange", "daemon/table/cs-entry.cpp: operator<, compareQueryWithData"]}
{"id": "C04", "title": "Content Store stores one packet per full name and refreshes on re-insertion", "statement": "At any time no two stored entries have the same name and implicit digest; inserting a packet already stored does not change which packets are stored, restarts its freshness period, and makes it solicited if either insertion was solicited.", "quantifier": "all CS histories", "why_tests_cant": "uniqueness is an invariant over histories", "anchors": ["daemon/table/cs.cpp: Cs::insert", "daemon/table/cs-entry.hpp: Entry::clearUnsolicited, updateFreshUntil"]}
{"id": "C05", "title": "Content Store erase removes exactly the requested packets", "statement": "Cs::erase(prefix, limit) removes the first min(limit, n) of the n stored packets whose name starts with prefix, in canonical order, reports that count, and leaves all other packets stored.", "quantifier": "all CS histories, prefixes and limits", "why_tests_cant": "ranges over all stores, prefixes and limits", "anchors": ["daemon/table/cs.cpp: Cs::eraseImpl, Cs::findPrefixRange", "daemon/mgmt/cs-manager.cpp: CsManager::erase"]}
{"id": "C06", "title": "LRU evicts the least recently used packet", "statement": "Under the lru policy, whenever a packet is evicted for capacity, every packet that stays was inserted, refreshed or returned by a lookup more recently than the evicted one.", "quantifier": "all CS histories under lru", "why_tests_cant": "the order of use is a property of the whole history", "anchors": ["daemon/table/cs-policy-lru.cpp: LruPolicy::doAfterInsert, doAfterRefresh, doBeforeUse, evictEntries"]}
{"id": "C07", "title": "Priority-FIFO evicts unsolicited, then stale, then oldest fresh packets", "statement": "Under priority_fifo a fresh solicited packet is evicted only when no unsolicited and no stale packet is stored, a stale one only when no unsolicited one is stored, and inside one class the packet that entered the class first goes first.", "quantifier": "all CS histories under priority_fifo with all timer interleavings", "why_tests_cant": "depends on every interleaving of insertions, refreshes and stale timers", "anchors": ["daemon/table/cs-policy-priority-fifo.cpp: evictOne, attachQueue, detachQueue, moveToStaleQueue"]}
{"id": "C08", "title": "Replacement policies never reference a removed packet", "statement": "At every moment the replacement policy's queues hold each stored packet exactly once and nothing else, and every stale-timer that is pending belongs to a stored packet; so no eviction, lookup or timer dereferences a removed packet.", "quantifier": "all CS histories under both policies with all timer interleavings", "why_tests_cant": "dangling iterators appear only in particular interleavings", "anchors": ["daemon/table/cs-policy-lru.cpp", "daemon/table/cs-policy-priority-fifo.cpp", "daemon/table/cs.cpp: Cs::eraseImpl, Cs::insert"]}
{"id": "C09", "title": "Dead Nonce List remembers each nonce for its guaranteed number of insertions", "statement": "After DeadNonceList::add(name, nonce), has(name, nonce) keeps answering true until at least (minimum capacity minus marks) later insertions happen, whatever capacity adjustments and marks interleave; and has answers true only for a pair whose hash was added.", "quantifier": "all sequences of add / mark / adjust-capacity", "why_tests_cant": "relies on an eviction order and capacity adaptation over unbounded histories", "anchors": ["daemon/table/dead-nonce-list.cpp: add, has, mark, adjustCapacity, evictEntries"]}
{"id": "C10", "title": "Dead Nonce List capacity stays in its bounds and its size follows", "statement": "The capacity is always between MIN_CAPACITY and MAX_CAPACITY, and an insertion of a new nonce never leaves the list longer than it was before unless it is within capacity.", "quantifier": "all sequences of add / mark / adjust-capacity", "why_tests_cant": "the capacity evolves by floating factors over unbounded histories", "anchors": ["daemon/table/dead-nonce-list.cpp: adjustCapacity, evictEntries"]}
{"id": "C11", "title": "Name tree hashtable behaves as a map from names to nodes", "statement": "find returns a node iff that name has been inserted and not erased since, insert creates a node only if absent, erase removes exactly that node, independent of hash values, collisions and of the expand/shrink rehashing.", "quantifier": "all operation sequences, all hash functions, all table-size options", "why_tests_cant": "collision patterns and resizes are unbounded", "anchors": ["daemon/table/name-tree-hashtable.cpp: Hashtable::find, insert, erase, resize, attach, detach"]}
{"id": "C12", "title": "Name tree contains every ancestor and only useful leaves", "statement": "After lookup(name) a node exists for every prefix of name, each node's parent is the node of its one-shorter prefix, and eraseIfEmpty(node) removes exactly the maximal chain of nodes upward that are childless and carry no table entry.", "quantifier": "all name-tree histories", "why_tests_cant": "structural invariant over histories", "anchors": ["daemon/table/name-tree.cpp: NameTree::lookup, eraseIfEmpty", "daemon/table/name-tree-entry.cpp: Entry::setParent, unsetParent"]}
{"id": "C13", "title": "Longest prefix match returns the longest acceptable prefix", "statement": "findLongestPrefixMatch(name, pred) returns the node with the longest prefix of name (up to the depth limit) that satisfies pred, or nothing if none does; the variants starting from a node or a PIT entry agree with the by-name variant.", "quantifier": "all name-tree contents, names and predicates", "why_tests_cant": "ranges over all trees and names", "anchors": ["daemon/table/name-tree.cpp: findLongestPrefixMatch (3 overloads)"]}
{"id": "C14", "title": "Enumerations visit each qualifying node exactly once", "statement": "Full enumeration yields each node accepted by the selector exactly once; partial enumeration yields exactly the nodes below the start whose ancestors all asked for children and that asked for themselves; findAllMatches yields every accepted prefix node of the name.", "quantifier": "all name-tree contents, selectors and start names", "why_tests_cant": "ranges over all trees and selectors", "anchors": ["daemon/table/name-tree-iterator.cpp: FullEnumerationImpl, PartialEnumerationImpl, PrefixMatchImpl"]}
{"id": "C15", "title": "FIB longest prefix match", "statement": "Fib::findLongestPrefixMatch(name) returns the entry of the longest prefix of name present in the FIB, and the built-in empty entry if there is none.", "quantifier": "all FIB histories (insert, erase, add/update nexthop, remove nexthop) and all names", "why_tests_cant": "ranges over all FIB contents and names", "anchors": ["daemon/table/fib.cpp: Fib::findLongestPrefixMatchImpl"]}
{"id": "C16", "title": "FIB nexthop lists are duplicate-free and cost-ordered", "statement": "Every FIB entry reached through the management operations has at least one nexthop, at most one per face, listed in non-decreasing cost; add-or-update sets that face's cost and changes no other nexthop; remove deletes that face only, and removes the entry iff it was the last one.", "quantifier": "all FIB histories", "why_tests_cant": "invariant over histories", "anchors": ["daemon/table/fib-entry.cpp: addOrUpdateNextHop, removeNextHop, sortNextHops", "daemon/table/fib.cpp: Fib::addOrUpdateNextHop, Fib::removeNextHop"]}
{"id": "C17", "title": "New-nexthop notification reports the nexthop that was added", "statement": "When Fib::addOrUpdateNextHop adds a nexthop, afterNewNextHop is emitted with that prefix and with that nexthop (the face and cost just given).", "quantifier": "all FIB entries and all added nexthops", "why_tests_cant": "depends on the position the sort moves the new element to", "anchors": ["daemon/table/fib.cpp: Fib::addOrUpdateNextHop", "daemon/table/fib-entry.cpp: Entry::addOrUpdateNextHop"]}
{"id": "C18", "title": "PIT aggregates Interests by name and selectors", "statement": "Pit::insert returns an existing entry iff one with the same name, CanBePrefix and MustBeFresh exists, otherwise a new one; two live entries never share these three; size() is the number of live entries; find never changes the table.", "quantifier": "all PIT histories", "why_tests_cant": "invariant over histories", "anchors": ["daemon/table/pit.cpp: Pit::findOrInsert, Pit::erase", "daemon/table/pit-entry.cpp: Entry::canMatch"]}
{"id": "C19", "title": "PIT returns exactly the Interests satisfied by a Data", "statement": "Pit::findAllDataMatches(data) returns each live entry whose Interest is satisfied by the Data exactly once, and no other entry.", "quantifier": "all PIT histories and all Data", "why_tests_cant": "the lookup walks name-tree prefixes; completeness ranges over all tables", "anchors": ["daemon/table/pit.cpp: Pit::findAllDataMatches"]}
{"id": "C20", "title": "PIT in-records and out-records are per face and carry the latest Interest", "statement": "A PIT entry never has two in-records (or two out-records) for one face; insertOrUpdate makes the record's last nonce, renewal time and expiry those of the given Interest and leaves the other records unchanged.", "quantifier": "all sequences of record operations", "why_tests_cant": "invariant over histories", "anchors": ["daemon/table/pit-entry.cpp: insertOrUpdateInRecord, insertOrUpdateOutRecord, deleteOutRecord", "daemon/table/pit-entry.hpp: deleteInRecord, clearInRecords", "daemon/table/pit-entry.cpp: FaceRecord::update"]}
{"id": "C21", "title": "Effective strategy is that of the longest prefix", "statement": "StrategyChoice::findEffectiveStrategy(name) returns the strategy set at the longest prefix of name; the root always has one; insert with an unknown strategy or a too deep prefix changes nothing.", "quantifier": "all strategy-choice histories and names", "why_tests_cant": "ranges over all histories and names", "anchors": ["daemon/table/strategy-choice.cpp: insert, erase, findEffectiveStrategyImpl"]}
{"id": "C22", "title": "Strategy change resets strategy state exactly where the strategy changes", "statement": "After setting or unsetting a strategy choice, a strategy never sees StrategyInfo left by a strategy of a different type: StrategyInfo on PIT and measurements entries whose effective strategy type changed is cleared, everywhere else it is kept.", "quantifier": "all strategy-choice histories and name-tree contents (violated for PIT entries of Interests with an implicit digest; counterexample proved)", "why_tests_cant": "depends on subtree enumeration with cut-offs", "anchors": ["daemon/table/strategy-choice.cpp: changeStrategy, clearStrategyInfo"]}
{"id": "C23", "title": "Measurements entries live at least as long as requested", "statement": "A measurements entry is removed only at or after the latest expiry requested for it, extendLifetime never shortens a lifetime, and each live entry has a pending cleanup at its expiry.", "quantifier": "all sequences of get, extendLifetime and clock advances", "why_tests_cant": "time-dependent invariant over histories", "anchors": ["daemon/table/measurements.cpp: get, extendLifetime, cleanup"]}
{"id": "C24", "title": "Removing a face leaves no trace of it in the tables", "statement": "After cleanupOnFaceRemoval no FIB nexthop, in-record or out-record mentions the face, all nexthops and records of other faces are unchanged, and name-tree nodes that became useless are removed.", "quantifier": "all table contents", "why_tests_cant": "ranges over all tables", "anchors": ["daemon/table/cleanup.cpp: cleanupOnFaceRemoval"]}
{"id": "C25", "title": "/localhost scope is never violated", "statement": "No Interest or Data under /localhost received from a non-local face has any effect on PIT, CS or other faces. Data under /localhost is never sent to a non-local face, whatever the strategy; Interests and Nacks under /localhost are not sent there by strategies that check the scope as the supplied ones do, except where the consumer chose the next hop explicitly (NextHopFaceId).", "quantifier": "all forwarder histories, all strategies", "why_tests_cant": "must hold for every strategy behaviour and packet", "anchors": ["daemon/fw/forwarder.cpp: onIncomingInterest, onIncomingData, onOutgoingData", "daemon/fw/algorithm.cpp: wouldViolateScope"]}
{"id": "C26", "title": "HopLimit is honoured", "statement": "An Interest received with HopLimit 0 is dropped without effect; otherwise the HopLimit is decremented exactly once per forwarder and an Interest whose decremented HopLimit is 0 is never sent to a non-local face.", "quantifier": "all forwarder histories, all strategies", "why_tests_cant": "all packets and strategies", "anchors": ["daemon/fw/forwarder.cpp: onIncomingInterest, onOutgoingInterest"]}
{"id": "C27", "title": "Looping Interests are not forwarded", "statement": "An Interest whose (name, nonce) is in the Dead Nonce List, or whose nonce occurs in a record of the same PIT entry (unless it repeats the nonce the same point-to-point face used last), is never forwarded and never recorded as a new downstream; a duplicate Nack is returned only on point-to-point faces. An Interest for which neither holds is not treated as looping.", "quantifier": "all forwarder histories, all strategies", "why_tests_cant": "all interleavings of Interests", "anchors": ["daemon/fw/forwarder.cpp: onIncomingInterest, onInterestLoop", "daemon/fw/algorithm.cpp: findDuplicateNonce"]}
{"id": "C28", "title": "Each Interest is answered by at most one Data per face", "statement": "For every face, at any time, the number of Data packets sent to it never exceeds the number of Interests received from it (flow balance), for all strategies that use the default Data handling.", "quantifier": "all forwarder histories", "why_tests_cant": "counting property over unbounded histories", "anchors": ["daemon/fw/forwarder.cpp: onIncomingData, onContentStoreHit, onOutgoingData", "daemon/fw/strategy.cpp: sendData, sendDataToAll"]}
{"id": "C29", "title": "Data reaches exactly the waiting downstreams", "statement": "When a Data arrives, it is sent once to every face that has an unexpired pending Interest satisfied by it, except the arrival face unless that face is ad hoc, and to no other face; those pending Interests are then marked satisfied.", "quantifier": "all PIT contents, arrival faces and Data", "why_tests_cant": "ranges over all sets of pending Interests", "anchors": ["daemon/fw/forwarder.cpp: onIncomingData", "daemon/fw/strategy.cpp: sendDataToAll"]}
{"id": "C30", "title": "Unsolicited Data is never forwarded", "statement": "A Data packet that matches no pending Interest is not sent to any face, and is cached only if the unsolicited-data policy admits it for that face.", "quantifier": "all forwarder histories and policies", "why_tests_cant": "all packets, policies and states", "anchors": ["daemon/fw/forwarder.cpp: onDataUnsolicited", "daemon/fw/unsolicited-data-policy.cpp"]}
{"id": "C31", "title": "Nacks are accepted and sent only where the protocol allows", "statement": "An incoming Nack has an effect only if it arrives on a point-to-point face and its name and nonce match an Interest sent on that face and still recorded; an outgoing Nack is sent only to a point-to-point face with a pending Interest, carries that Interest's nonce, and cancels it.", "quantifier": "all forwarder histories, all strategies", "why_tests_cant": "all packets and strategies", "anchors": ["daemon/fw/forwarder.cpp: onIncomingNack, onOutgoingNack"]}
{"id": "C32", "title": "Every pending Interest is eventually finalized", "statement": "After every forwarding event each PIT entry has exactly one pending expiry timer, so that no PIT entry stays in the table forever, whatever the strategy does.", "quantifier": "all forwarder histories, all strategies", "why_tests_cant": "a leak needs a particular event order; liveness-style invariant", "anchors": ["daemon/fw/forwarder.cpp: setExpiryTimer, onInterestFinalize, onIncomingInterest, onContentStoreMiss"]}
{"id": "C33", "title": "Nonces of finished Interests are remembered", "statement": "When an Interest is finalized unsatisfied, or satisfied by Data whose freshness is shorter than the Dead Nonce List lifetime while MustBeFresh was set, the last nonce sent to each recorded upstream is in the Dead Nonce List afterwards; when an upstream's Data satisfies an Interest that must be fresh with such Data, its nonce is inserted, and no other nonces are.", "quantifier": "all PIT entries", "why_tests_cant": "all entries and out-record sets", "anchors": ["daemon/fw/forwarder.cpp: insertDeadNonceList, onInterestFinalize"]}
{"id": "C34", "title": "A consumer-chosen next hop is obeyed", "statement": "An Interest carrying a NextHopFaceId that exists is sent to that face only (or nowhere), without consulting FIB or strategy, and to nowhere if the face does not exist.", "quantifier": "all forwarder histories", "why_tests_cant": "all packets and face tables", "anchors": ["daemon/fw/forwarder.cpp: onContentStoreMiss"]}
{"id": "C35", "title": "Face identifiers are unique and never reused", "statement": "FaceTable::add gives every face an identifier above the reserved range different from all identifiers ever given, get(id) returns exactly the face with that id while it is in the table.", "quantifier": "all sequences of add, addReserved and remove", "why_tests_cant": "never-reused is a property of whole histories", "anchors": ["daemon/fw/face-table.cpp: add, addReserved, addImpl, remove"]}
{"id": "C36", "title": "Best-route picks the cheapest eligible next hop and never fails an assertion", "statement": "For a new Interest best-route sends to the lowest-cost eligible next hop or Nacks NoRoute if there is none; for an unsuppressed retransmission it sends to the cheapest unused eligible next hop, or if all are used to the one used longest ago; the assertion that a used next hop has an out-record always holds.", "quantifier": "all FIB entries, PIT entries, faces and clocks", "why_tests_cant": "ranges over all nexthop lists and record sets", "anchors": ["daemon/fw/best-route-strategy.cpp: afterReceiveInterest", "daemon/fw/algorithm.cpp: isNextHopEligible, findEligibleNextHopWithEarliestOutRecord"]}
{"id": "C37", "title": "Multicast sends to every eligible unsuppressed next hop", "statement": "The multicast strategy sends a received Interest to each eligible next hop whose retransmission is not suppressed, once, and to no other face.", "quantifier": "all FIB and PIT entries", "why_tests_cant": "ranges over all nexthop lists and record sets", "anchors": ["daemon/fw/multicast-strategy.cpp: afterReceiveInterest"]}
{"id": "C38", "title": "Nack aggregation returns the least severe reason only when nothing else is pending", "statement": "With the common Nack procedure, a Nack goes to all downstreams only if every out-record has been Nacked, and then with the least severe reason; if exactly one of several upstreams is left and it is also the only remaining downstream candidate, the Nack goes to it only; otherwise nothing is sent.", "quantifier": "all sets of out-records and Nack reasons", "why_tests_cant": "ranges over all record sets", "anchors": ["daemon/fw/process-nack-traits.cpp: processNack"]}
{"id": "C39", "title": "Retransmission suppression window", "statement": "With exponential suppression an Interest that is not new is forwarded only if at least the current suppression interval has passed since the last transmission (per PIT entry or per upstream); after each forwarded retransmission the interval is multiplied and never exceeds the maximum.", "quantifier": "all transmission histories and parameters", "why_tests_cant": "timing property over histories", "anchors": ["daemon/fw/retx-suppression-exponential.cpp", "daemon/fw/retx-suppression-fixed.cpp"]}
{"id": "C40", "title": "Strategy instance names resolve to the right version", "statement": "A versioned instance name resolves to the registered strategy of the same base name with the exact or next higher version; an unversioned name to the highest version; other names to none.", "quantifier": "all registries and names", "why_tests_cant": "relies on canonical order of all names", "anchors": ["daemon/fw/strategy.cpp: Strategy::find, parseInstanceName"]}
{"id": "C41", "title": "A re-sent Interest is waiting again although its previous transmission was Nacked", "statement": "After an Interest is sent again to a face that had answered the previous transmission with a Nack, the pending out-record counts as pending (not Nacked) until that face answers again.", "quantifier": "all PIT histories (violated: the stored Nack is never cleared; counterexample proved)", "why_tests_cant": "needs Nack / resend interleavings", "anchors": ["daemon/table/pit-entry.cpp: OutRecord::setIncomingNack", "daemon/table/pit-entry.hpp: clearIncomingNack", "daemon/fw/forwarder.cpp: onOutgoingInterest"]}
{"id": "C42", "title": "ASF ranks next hops by working state, delay, cost", "statement": "ASF forwards to an eligible next hop such that no other eligible next hop ranks better: measured working faces first (by smoothed RTT, then cost), then unmeasured, then timed-out, ties by face id; probing never uses the arrival face, the chosen face or a scope-violating face.", "quantifier": "all FIB entries and measurements", "why_tests_cant": "ranges over all rankings", "anchors": ["daemon/fw/asf-strategy.cpp: getBestFaceForForwarding", "daemon/fw/asf-probing-module.cpp: getFaceToProbe"]}
{"id": "C43", "title": "Fragmentation and reassembly are inverse", "statement": "Every fragment a link service transmits belongs to a split of one of the network packets it was given. If all fragments produced for a network packet are received, in any order, with duplicates, interleaved with fragments of any other packets, before the reassembly timeout, the receiver delivers exactly the original network packet with the headers of the first fragment, at most as often as each of its fragments was received (so exactly once if some fragment arrived once); whatever it reassembles from frames of one peer is a packet that peer was given.", "quantifier": "all packets, MTUs, orders, duplications and interleavings, including sequence-number wraparound", "why_tests_cant": "permutations and interleavings are unbounded", "anchors": ["daemon/face/lp-fragmenter.cpp: fragmentPacket", "daemon/face/lp-reassembler.cpp: receiveFragment, doReassembly", "daemon/face/generic-link-service.cpp: assignSequences, sendNetPacket"]}
{"id": "C44", "title": "Fragments fit the MTU", "statement": "Every LpPacket produced by the fragmenter, after its sequence number is attached, encodes to at most the given MTU; a packet that fits is not fragmented; the number of fragments is within the limit or the packet is refused; a fragmented packet always has at least two fragments.", "quantifier": "all packets, header fields and MTUs", "why_tests_cant": "size arithmetic over all lengths incl. TLV length-field boundaries", "anchors": ["daemon/face/lp-fragmenter.cpp: fragmentPacket, MAX_SINGLE_FRAG_OVERHEAD, MAX_FRAG_OVERHEAD"]}
{"id": "C45", "title": "With fragmentation on, a packet is never dropped for exceeding the MTU", "statement": "If fragmentation is enabled, an LpPacket carrying a fragment that was accepted by the fragmenter is never dropped by the final MTU check, also with reliability acks and congestion marks attached.", "quantifier": "all packets, MTUs, ack queues and congestion states (violated in two ways, both proved: a congestion mark added after acks filled the space, and a packet of 253 or 254 octets whose TLV-LENGTH grows when acks are added)", "why_tests_cant": "needs exact size arithmetic for all combinations", "anchors": ["daemon/face/generic-link-service.cpp: sendLpPacket, sendNetPacket, checkCongestionLevel", "daemon/face/lp-reliability.cpp: piggyback"]}
{"id": "C46", "title": "Reassembly state is bounded and cleaned up", "statement": "Each partially reassembled packet has a pending drop timer, is removed when complete or when the timer fires, and a fragment with inconsistent FragCount/FragIndex or without sequence never changes a partial packet.", "quantifier": "all fragment sequences from all endpoints", "why_tests_cant": "adversarial sequences are unbounded", "anchors": ["daemon/face/lp-reassembler.cpp: receiveFragment, timeoutPartialPacket"]}
{"id": "C47", "title": "Link reliability bounds retransmissions and accounts for every packet once", "statement": "Each fragment is transmitted at most maxRetx+1 times; each network packet sent ends in at most one of: acknowledged, retransmitted-and-acknowledged, retries exhausted; after exhaustion none of its fragments is transmitted again; a dropped Interest is reported exactly once.", "quantifier": "all sequences of sends, acks (any values), losses and timeouts", "why_tests_cant": "interleavings of acks and timers are unbounded", "anchors": ["daemon/face/lp-reliability.cpp: handleOutgoing, processIncomingPacket, onLpPacketLost, onLpPacketAcknowledged"]}
{"id": "C48", "title": "Link reliability window never dangles", "statement": "In every reachable state the window start refers to a stored unacknowledged fragment (if any is stored), it is the oldest one in transmission order, and no assertion, invalid iterator or missing fragment is reached, for every sequence of acks including bogus ones and TxSequence wraparound.", "quantifier": "all sequences of sends, acks and timeouts", "why_tests_cant": "wraparound and bogus acks make the state space unbounded", "anchors": ["daemon/face/lp-reliability.cpp: deleteUnackedFrag, findLostLpPackets, assignTxSequence"]}
{"id": "C49", "title": "Duplicate link frames are delivered once", "statement": "With reliability enabled, a second frame with the same Sequence arriving within one RTO after an accepted one is not delivered to the network layer, and a frame with a Sequence never seen before is delivered.", "quantifier": "all receive sequences and clock advances", "why_tests_cant": "needs arbitrary reorderings", "anchors": ["daemon/face/lp-reliability.cpp: processIncomingPacket"]}
{"id": "C50", "title": "Every received frame is acknowledged exactly once", "statement": "The TxSequences placed in Ack fields of outgoing packets are exactly the TxSequences received with a fragment while reliability is enabled, each once and in order of reception. While some are pending the idle timer runs (unless reliability was disabled in between), and when it fires all are sent, if an Ack fits in the MTU.", "quantifier": "all receive/send sequences", "why_tests_cant": "interleavings are unbounded", "anchors": ["daemon/face/lp-reliability.cpp: piggyback, startIdleAckTimer"]}
{"id": "C51", "title": "Link-layer fields are accepted only where permitted", "statement": "An Interest tagged with a NextHopFaceId reaches forwarding only from a face with local fields enabled; fields not permitted for the packet type make the packet dropped; IncomingFaceId is never sent on faces without local fields.", "quantifier": "all received LpPackets and options", "why_tests_cant": "all field combinations", "anchors": ["daemon/face/generic-link-service.cpp: decodeInterest, decodeData, decodeNack, encodeLpFields"]}
{"id": "C52", "title": "Stream transports frame packets independently of chunking", "statement": "For every way a byte stream is cut into reads, a stream transport delivers exactly the sequence of TLV packets the stream consists of, as long as none exceeds the maximum packet size, and goes on reading. The octets that leave on a connection are a prefix of the accepted packets, one after the other, and all of them once nothing is outstanding. While it is UP the transport never stalls with octets to read or packets to send.", "quantifier": "all byte streams, chunkings, partial writes and interleavings of reads, writes, errors, closing and reconnecting", "why_tests_cant": "chunkings are unbounded", "anchors": ["daemon/face/stream-transport.hpp: startReceive, handleReceive, doSend, sendFromQueue, handleSend"]}
{"id": "C53", "title": "Transport lifecycle", "statement": "A transport only moves along UP/DOWN -> CLOSING or FAILED -> CLOSED (and between UP and DOWN); once it leaves UP/DOWN nothing is sent any more; CLOSED is final; close() is idempotent.", "quantifier": "all sequences of state changes, sends and errors", "why_tests_cant": "all event orders", "anchors": ["daemon/face/transport.cpp: setState, close, send", "daemon/face/stream-transport.hpp", "daemon/face/tcp-transport.cpp"]}
{"id": "C54", "title": "Congestion marks only during sustained congestion", "statement": "A packet is marked only if the send queue has been above the threshold at every check for at least one marking interval, and marking stops and resets at the first check at or below the threshold.", "quantifier": "all sequences of queue observations", "why_tests_cant": "timing property over histories", "anchors": ["daemon/face/generic-link-service.cpp: checkCongestionLevel"]}
{"id": "C55", "title": "FIB follows the RIB", "statement": "After every completed RIB update the FIB has, for each name with routes and each existing face, a next hop iff the name has a route to the face or inherits one: the lowest cost of its own routes, otherwise, unless it has a capture route, the lowest cost of the child-inherit routes at the longest shorter name that has one, provided no name in between captures. Nonexistent faces have no next hops.", "quantifier": "all RIB histories (violated in several cases; counterexamples proved; proved on the largest class of histories we found)", "why_tests_cant": "incremental FIB computation must be right for every history", "anchors": ["daemon/rib/fib-updater.cpp: computeUpdates, addFibUpdate, traverseSubTree", "daemon/rib/rib.cpp: beginApplyUpdate, insert, erase, getAncestorRoutes, modifyInheritedRoutes", "daemon/mgmt/fib-manager.cpp: addNextHop, removeNextHop"]}
{"id": "C56", "title": "RIB tree structure", "statement": "In every reachable RIB the names are distinct and each has a route; the parent of an entry is the entry with the longest proper prefix present; the children are the inverse relation; size() is the number of routes; and no assertion fails. The only crash is a null pointer dereference when a registration makes the cheapest route to a face more expensive than another one and none of them is child-inherit.", "quantifier": "all RIB histories", "why_tests_cant": "structural invariant over histories", "anchors": ["daemon/rib/rib.cpp: Rib::insert, erase, eraseEntry, findParent, findDescendants"]}
{"id": "C57", "title": "A RIB entry captures iff it has a capture route", "statement": "RibEntry::hasCapture() is true iff one of its routes has the CAPTURE flag.", "quantifier": "all RIB histories (violated when a route's flags are updated; counterexample proved)", "why_tests_cant": "needs update histories", "anchors": ["daemon/rib/rib-entry.cpp: insertRoute, eraseRoute", "daemon/rib/rib.cpp: Rib::insert"]}
{"id": "C58", "title": "Each RIB update batch completes exactly once, keeping its operation", "statement": "For each RIB update exactly one of success or failure is reported, in the order of submission; the FIB commands of different updates are never in flight together; while updates are unreported a command is in flight, and when all commands are answered all updates are reported; the RIB has exactly the routes of the successful updates; a command that times out is retried as the same command.", "quantifier": "all orders, answers and timeouts of FIB commands, interleaved with new updates (violated; counterexamples proved)", "why_tests_cant": "orders of asynchronous responses", "anchors": ["daemon/rib/fib-updater.cpp: onUpdateSuccess, onUpdateError", "daemon/rib/rib.cpp: sendBatchFromQueue, onFibUpdateSuccess, onFibUpdateFailure"]}
{"id": "C59", "title": "A destroyed face loses all its routes", "statement": "After beginRemoveFace and completion of the queued updates no route of that face is left in the RIB, and routes of other faces are unchanged.", "quantifier": "all RIB histories", "why_tests_cant": "all RIB contents", "anchors": ["daemon/rib/rib.cpp: beginRemoveFace, beginRemoveFailedFaces"]}
{"id": "C60", "title": "Gateway advertisement uses the shortest matching identity", "statement": "HostToGatewayReadvertisePolicy advertises a route under the shortest prefix announced by an identity (its name without a last component nrd) that is a prefix of the route name, signed by such an identity, and does not advertise when there is none or the route is under /localhost or is /localhop/nfd; ClientToNlsrReadvertisePolicy advertises exactly the routes of clients.", "quantifier": "all key chains and names", "why_tests_cant": "all identity sets", "anchors": ["daemon/rib/readvertise/host-to-gateway-readvertise-policy.cpp"]}
{"id": "C61", "title": "Readvertised prefixes match the routes", "statement": "While the destination is available a prefix is being advertised iff at least one RIB route maps to it; adding or removing a route sends a command only when this changes; failed commands are repeated after a time that doubles up to one hour; no callback ever touches a removed record or destroyed object.", "quantifier": "all RIB histories and response orders (violated; counterexamples proved)", "why_tests_cant": "orders of asynchronous responses", "anchors": ["daemon/rib/readvertise/readvertise.cpp"]}
{"id": "C62", "title": "Face update is all-or-nothing", "statement": "faces/update with any invalid property changes nothing and reports exactly the invalid properties; otherwise all requested properties are applied; local fields are never enabled on a non-local face; an unknown face is answered with 404; faces/destroy closes exactly the face named.", "quantifier": "all faces and parameters", "why_tests_cant": "all parameter combinations", "anchors": ["daemon/mgmt/face-manager.cpp: updateFace, updateLinkServiceOptions"]}
{"id": "C63", "title": "Commands are authorized per module", "statement": "A management command of a module is accepted iff the current configuration grants that module to anybody or to the key that signed the command; configuration reload revokes earlier grants; modules without any grant reject everything.", "quantifier": "all configuration files, reload histories and commands", "why_tests_cant": "all configurations", "anchors": ["daemon/mgmt/command-authenticator.cpp: processConfig, makeAuthorization"]}
{"id": "C64", "title": "Subnet rules match exactly the addresses of the subnet", "statement": "Parsing address/len and testing an address of the same family gives true iff the first len bits of both addresses agree, whatever the scope id; whitelist/blacklist predicates accept iff some whitelist rule and no blacklist rule matches.", "quantifier": "all IPv4/IPv6 addresses and lengths", "why_tests_cant": "2^160 combinations", "anchors": ["core/network.cpp: operator>>", "core/network.hpp: doesContain", "daemon/face/network-predicate.cpp"]}
{"id": "C65", "title": "FIB commands validate depth and face", "statement": "fib/add-nexthop answers 414 for a prefix deeper than the limit, 410 for an unknown face, and otherwise makes the nexthop present with that cost; fib/remove-nexthop always answers 200 and afterwards the nexthop is absent; nothing else changes; nexthops always go to existing faces; fib/list reports each entry once with its nexthops.", "quantifier": "all histories of commands, faces coming and going, and forwarding", "why_tests_cant": "all states", "anchors": ["daemon/mgmt/fib-manager.cpp: addNextHop, removeNextHop"]}
{"id": "C66", "title": "CS erase command reports progress truthfully", "statement": "cs/erase reports the number of packets erased, and reports a remaining capacity iff the internal per-command limit was reached, the request asked for more, and a packet under the prefix is still stored and servable.", "quantifier": "all CS states and commands", "why_tests_cant": "all states", "anchors": ["daemon/mgmt/cs-manager.cpp: erase"]}
{"id": "C67", "title": "Privilege drop and raise reach the configured identity", "statement": "After PrivilegeHelper::drop returns normally the effective user and group are the configured ones and after raise the original privileged ones; on a failure an error is raised instead of continuing silently.", "quantifier": "all uid/gid configurations and syscall outcomes", "why_tests_cant": "all syscall outcomes", "anchors": ["daemon/common/privilege-helper.cpp"]}
{"id": "C68", "title": "Content Store switches", "statement": "While admission is disabled, the limit is zero or the packet carries NoCache, Cs::insert changes nothing; while serving is disabled or the limit is zero, Cs::find reports a miss and changes nothing; a lookup never changes which packets are stored.", "quantifier": "all CS histories, packets and Interests", "why_tests_cant": "must hold in every state reachable by any history", "anchors": ["daemon/table/cs.cpp: Cs::insert, Cs::findImpl, Cs::enableAdmit, Cs::enableServe"]}
{"id": "C69", "title": "FIB size counts entries", "statement": "Fib::size() equals the number of prefixes that have a FIB entry (as reported by the forwarder status dataset).", "quantifier": "every sequence of table operations from the empty table", "why_tests_cant": "The counter is adjusted at many places, so a mismatch needs a particular interleaving of FIB, PIT and strategy operations sharing a name-tree node.", "anchors": ["daemon/table/fib.cpp: Fib::erase, Fib::insert", "daemon/table/fib.hpp: Fib::size"]}
{"id": "C70", "title": "The name tree keeps no useless node, and PIT lookup never asserts", "statement": "After every table operation each name-tree node either carries a FIB, PIT, measurements or strategy choice entry or has a descendant that does; consequently Pit::find never meets an empty node (its assertion does not fire).", "quantifier": "every sequence of FIB, PIT, strategy choice and measurements operations", "why_tests_cant": "The nodes left behind depend on the whole history of which tables shared a node.", "anchors": ["daemon/table/name-tree.cpp: NameTree::eraseIfEmpty", "daemon/table/pit.cpp: Pit::findOrInsert", "daemon/table/fib.cpp: Fib::removeNextHop"]}
{"id": "C71", "title": "Table operations used within their contracts never fail an assertion", "statement": "In every state reachable by table operations, every table operation whose caller respects the documented contract (existing entries are passed, the strategy registry is consistent) completes: no assertion fails and no removed object is used.", "quantifier": "every reachable state of the FIB, PIT, strategy choice and measurements tables and every operation within its contract", "why_tests_cant": "A failing assertion or dangling entry needs a particular history of operations sharing name-tree nodes.", "anchors": ["daemon/table/fib.cpp", "daemon/table/pit.cpp", "daemon/table/strategy-choice.cpp", "daemon/table/measurements.cpp", "daemon/table/name-tree.cpp"]}
{"id": "C72", "title": "A cached Data answers an Interest without forwarding it", "statement": "An Interest that is admissible, not looping, has no other pending downstream and is satisfied by the Content Store is answered to its sender with the Data found there; nothing is forwarded and nobody is left pending for it.", "quantifier": "every reachable forwarder state, Interest and cached Data", "why_tests_cant": "depends on all of PIT, Dead Nonce List and Content Store state", "anchors": ["daemon/fw/forwarder.cpp: onIncomingInterest, onContentStoreHit", "daemon/fw/strategy.cpp: afterContentStoreHit, sendData"]}
{"id": "C73", "title": "The forwarding pipelines never fail an assertion", "statement": "Whatever packets arrive on whatever faces, faces are added and removed, timers fire and settings change, and however strategies react, provided they answer an Interest only with Data they were given for it, no assertion of the forwarding pipelines, PIT or Content Store fails.", "quantifier": "all histories of events, all strategies within the stated contract", "why_tests_cant": "one assertion failure stops the forwarder; the histories are unbounded", "anchors": ["daemon/fw/forwarder.cpp", "daemon/fw/strategy.cpp: sendData", "daemon/table/pit.cpp", "daemon/table/cs.cpp"]}
{"id": "C74", "title": "Forwarder counters are truthful", "statement": "nOutInterests, nOutData and nOutNacks equal the numbers of packets handed to faces; nSatisfiedInterests + nUnsatisfiedInterests + PIT size equals the number of PIT entries ever created. nInInterests, nInData and nInNacks equal the numbers of packets received from faces, nUnsolicitedData the number of Data let in that no pending Interest asked for; of the Interests that are neither dropped nor looping, nCsHits counts those that nobody was waiting for and the Content Store can answer, and nCsMisses the others.", "quantifier": "every history of the forwarder, all strategies", "why_tests_cant": "counters are updated at many places in all pipelines", "anchors": ["daemon/fw/forwarder.cpp", "daemon/fw/forwarder-counters.hpp"]}
{"id": "C75", "title": "A forwarded Interest is the received one, one hop on", "statement": "What the strategy is given to forward has the received Interest's name, selectors, nonce and lifetime; its HopLimit is one less (or the configured default if it had none); its forwarding hint is removed exactly if one of the delegations is a prefix of a region configured for this router, and unchanged otherwise.", "quantifier": "all Interests, faces, configurations and histories", "why_tests_cant": "combinations of hints, regions, hop limits and pending state are unbounded", "anchors": ["daemon/fw/forwarder.cpp: onIncomingInterest, onContentStoreMiss", "daemon/table/network-region-table.cpp: isInProducerRegion"]}
{"id": "C76", "title": "The supplied strategies meet what the forwarder expects of strategies", "statement": "Every supplied strategy keeps packets under /localhost on local faces, and never forwards an Interest under /localhop that arrived on a non-local face to another non-local face. All but self-learning return received Data to all pending downstreams, send only Data they were handed, and cause no assertion to fail.", "quantifier": "all supplied strategies, their routes, measurements, parameters and random choices; all histories", "why_tests_cant": "the strategies' decisions depend on unbounded FIB, PIT and measurement state", "anchors": ["daemon/fw/algorithm.cpp: wouldViolateScope, isNextHopEligible", "daemon/fw/access-strategy.cpp: afterReceiveInterest", "daemon/fw/asf-strategy.cpp: afterReceiveInterest", "daemon/fw/best-route-strategy.cpp: afterReceiveInterest", "daemon/fw/multicast-strategy.cpp: afterReceiveInterest", "daemon/fw/random-strategy.cpp: afterReceiveInterest", "daemon/fw/self-learning-strategy.cpp: afterReceiveInterest"]}
{"id": "C77", "title": "ASF counts timeouts correctly", "statement": "After any history of Interests sent, Data, Nacks and timeouts, ASF considers a next hop timed out exactly if, since it last measured a round trip on it, the face sent a Nack or the tolerated number of timeouts happened with no Data in between; a timeout happens only for an Interest sent to the face that neither Data nor a Nack under its name has answered since.", "quantifier": "all event histories and all timeout limits", "why_tests_cant": "ranges over all interleavings of answers and timeouts", "anchors": ["daemon/fw/asf-strategy.cpp: onTimeoutOrNack, beforeSatisfyInterest", "daemon/fw/asf-measurements.cpp: FaceInfo"]}
{"id": "C78", "title": "Routes for an Interest come from its name or from the first usable delegation", "statement": "Without a forwarding hint a strategy uses the routes of the longest prefix of the Interest's name that has routes; with a forwarding hint, outside the producer's region, those of the first delegation that has routes, and none if no delegation has.", "quantifier": "all FIB histories, names, hints and regions", "why_tests_cant": "FIB contents, hints and names are unbounded", "anchors": ["daemon/fw/strategy.cpp: lookupFib", "daemon/table/fib.cpp: findLongestPrefixMatch"]}
{"id": "C79", "title": "Permanent TCP faces reconnect with exponential backoff", "statement": "When the connection of a permanent TCP face fails, the face goes DOWN (any other stream face closes or fails) and keeps trying to connect for as long as it is DOWN; the time allowed for an attempt starts at one second after a connection, doubles after each attempt that runs out of time, and never exceeds 300 seconds.", "quantifier": "all histories of errors, connection attempts, timeouts, changes of persistency and closing", "why_tests_cant": "all orders of completion handlers, timers and calls", "anchors": ["daemon/face/tcp-transport.cpp: handleError, reconnect, handleReconnect, handleReconnectTimeout, afterChangePersistency"]}
{"id": "C80", "title": "No event on a stream transport ends the process", "statement": "Whatever the peer and the socket do, and whenever the face is closed or its persistency changed, no handler of a stream transport fails an assertion, throws out of the event loop or runs after the transport has been deallocated.", "quantifier": "all histories of socket events, sends, closing, timers and deferred handlers", "why_tests_cant": "depends on handlers that are queued at the same time", "anchors": ["daemon/face/stream-transport.hpp: startReceive, handleReceive, handleSend, deferredClose", "daemon/face/transport.cpp: setState", "daemon/fw/face-table.cpp: remove"]}
{"id": "C83", "title": "Strategy instances are created with exactly the parameters in their name", "statement": "The components after the version in a strategy instance name are its parameters: each must be of the form name~value with neither part empty, the last value given for a name wins, and a name that does not parse, or carries parameters for a strategy that has none, creates no instance. Only versioned names can be registered, and none twice.", "quantifier": "all registries, instance names and constructors", "why_tests_cant": "all component strings and orders of parameters", "anchors": ["daemon/fw/strategy.cpp: create, parseInstanceName, parseParameters, makeInstanceName", "daemon/fw/strategy.hpp: registerType"]}
{"id": "C84", "title": "The RIB holds the routes registered", "statement": "A registration replaces the route with the same face and origin or adds one, an unregistration removes exactly that route, and no other route changes; an update is refused only if its face does not exist, and then nothing changes.", "quantifier": "all RIB histories and updates", "why_tests_cant": "all histories, with inheritance computed in between", "anchors": ["daemon/rib/rib.cpp: insert, erase, beginApplyUpdate, onFibUpdateSuccess", "daemon/rib/rib-entry.cpp: insertRoute, eraseRoute"]}
{"id": "C85", "title": "Face query returns exactly the matching faces", "statement": "A face is in the answer to faces/query iff it is in the face table and agrees with every field of the filter, where a URI scheme may be that of either end.", "quantifier": "all face tables and filters", "why_tests_cant": "all combinations of filter fields and faces", "anchors": ["daemon/mgmt/face-manager.cpp: queryFaces, matchFilter"]}
{"id": "C86", "title": "Strategy choice commands", "statement": "strategy-choice/set answers 414 for a prefix deeper than the limit, 404 for an unknown strategy, 409 for wrong parameters, in each case changing nothing, and otherwise 200 with the instance, which is then the choice of this prefix; strategy-choice/unset removes the choice of a prefix other than the root; no other choice changes; strategy-choice/list reports each choice once.", "quantifier": "all histories of commands, faces coming and going, and forwarding", "why_tests_cant": "all states and names", "anchors": ["daemon/mgmt/strategy-choice-manager.cpp: setStrategy, unsetStrategy, listChoices"]}
{"id": "C87", "title": "Readvertise destination available iff reachable", "statement": "The readvertise destination is considered available iff the RIB has an entry for a prefix of the command prefix.", "quantifier": "all histories of RIB entries inserted and erased (violated; counterexample proved)", "why_tests_cant": "all sets of overlapping entries", "anchors": ["daemon/rib/readvertise/nfd-rib-readvertise-destination.cpp"]}
{"id": "C88", "title": "Routes expire in time, and not before", "statement": "A route registered with an expiration period is removed once the period is over, and not before unless asked for; re-registering it replaces the period.", "quantifier": "all histories of commands, announcements, faces, completions of updates in any order of events, clock advances (the second part is violated; counterexample proved)", "why_tests_cant": "interleavings of timers and queued updates are unbounded", "anchors": ["daemon/mgmt/rib-manager.cpp: addRoute, registerEntry", "daemon/rib/rib.cpp: insert, erase, onRouteExpiration", "daemon/rib/rib-entry.cpp: eraseRoute"]}
{"id": "C89", "title": "Prefix announcements create routes that last no longer than the announcement", "statement": "A route with a prefix announcement goes back to the arrival of that announcement on its face and its validation, has the announced name and the attributes for announcements, and expires no later than the announcement (expiration period, validity period); the self-learning strategy is told the result of each request exactly once, can renew a learned route, and obtains the announcement of the longest prefix with a route.", "quantifier": "all histories (renewing is violated for routes of shorter names; counterexample proved)", "why_tests_cant": "all histories and clock values", "anchors": ["daemon/mgmt/rib-manager.cpp: announceEntry, slAnnounce, slRenew, slFindAnn", "daemon/rib/route.cpp: computeExpiration", "daemon/rib/rib-entry.cpp: getPrefixAnnouncement", "daemon/rib/rib.cpp: findLongestPrefix"]}
{"id": "C90", "title": "RIB commands", "statement": "rib/register, rib/unregister and rib/announce are answered at once and once, with the face they apply to; they have exactly the effect asked for; names that the FIB cannot take are refused; the dataset lists exactly the routes with their remaining lifetime; and no command or packet ends the daemon.", "quantifier": "all commands in all states (the last part is violated by announcements of long names to the self-learning strategy; counterexample proved)", "why_tests_cant": "all parameters and histories", "anchors": ["daemon/mgmt/rib-manager.cpp: registerEntry, unregisterEntry, announceEntry, listEntries, slAnnounce", "daemon/rib/fib-updater.cpp: onUpdateError", "daemon/mgmt/fib-manager.cpp: addNextHop"]}
{"id": "C91", "title": "A fragment is declared lost exactly when enough later fragments were acknowledged", "statement": "Each acknowledgement of a pending fragment counts, by one, against the pending fragments that were transmitted before it and against no other; a fragment is declared lost by acknowledgements exactly when its count reaches the configured threshold; a transmission starts with a count of zero; acknowledgements of anything else have no effect.", "quantifier": "all histories, all acknowledgements, also when TxSequences wrap around", "why_tests_cant": "all orders of acknowledgements and positions of the window in the circular sequence space", "anchors": ["daemon/face/lp-reliability.cpp: processIncomingPacket, findLostLpPackets, onLpPacketLost"]}
{"id": "C81", "title": "A UDP face delivers whole datagrams, closes when idle and only then, and dies cleanly", "statement": "A unicast UDP face hands each datagram that is exactly one TLV element to the link service, once and in order of arrival, and drops every other one; it transmits what the link service sends as whole datagrams in order. An on-demand face is closed for inactivity only if no packet was received for the idle timeout, and at the latest two idle timeouts after the last packet or after it became on-demand; other faces are never closed for inactivity. A face otherwise leaves UP only when it is closed or when an operation fails and it is not permanent. It then becomes CLOSED, exactly once, after its outstanding handlers have run; nothing uses it after it is deallocated, and no exception escapes.", "quantifier": "all interleavings of datagrams, sends, failures, timers, closures and persistency changes on any number of faces", "why_tests_cant": "handlers of cancelled operations, timers and closures interleave in unboundedly many ways; idle closure depends on the whole history of arrivals", "anchors": ["daemon/face/datagram-transport.hpp: receiveDatagram, handleReceive, handleSend, processErrorCode, doClose, doSend", "daemon/face/unicast-udp-transport.cpp: afterChangePersistency, scheduleClosureWhenIdle", "daemon/face/transport.cpp: send, close, setState, setPersistency"]}
{"id": "C82", "title": "A UDP channel has one face per remote endpoint, answers every request once and keeps listening", "statement": "A UDP channel never has two faces for one remote endpoint that are not CLOSED. Each request to create a face is answered exactly once: with the existing face, which stays as it is, or with a new face that is UP and has the requested persistency, or with failure if the operating system refuses. A datagram from any endpoint goes to the face of this endpoint, created if there is none. A channel that was told to listen keeps accepting new peers.", "quantifier": "all sequences of requests, datagrams, failures and face closures", "why_tests_cant": "races between closure of a face, datagrams that are already queued and requests for the same endpoint", "anchors": ["daemon/face/udp-channel.cpp: connect, listen, waitForNewPeer, handleNewPeer, createFace", "daemon/face/channel.cpp: connectFaceClosedSignal"]}
{"id": "C92", "title": "A TCP channel answers every connection request once, with one face per endpoint", "statement": "A TCP channel never has two faces for one remote endpoint that are not CLOSED. Each request to connect is answered exactly once: at once with the existing face, which stays as it is, or with a new face that is UP and has the requested persistency when the connection is established, or with failure when the connection fails or was not established within the timeout (8 seconds), and not earlier. The face in an answer belongs to the endpoint that was asked for.", "quantifier": "all interleavings of requests, completions of connection attempts, timeouts, accepted connections and closures of faces", "why_tests_cant": "the completion of an attempt, its timeout and the closure of faces for the same endpoint may be queued in any order", "anchors": ["daemon/face/tcp-channel.cpp: connect, createFace, handleConnect, handleConnectTimeout", "daemon/face/channel.cpp: connectFaceClosedSignal"]}
{"id": "C93", "title": "A TCP channel keeps accepting connections, and no peer can end the forwarder", "statement": "While a TCP channel listens, each incoming connection becomes an on-demand face that is UP, unless there is a face for this endpoint; a channel that was told to listen keeps accepting, whatever peers do; and no exception escapes from the handlers of the channel.", "quantifier": "all sequences of incoming connections, resets by peers at any moment, failures of the operating system, and requests", "why_tests_cant": "a peer may reset its connection between any two system calls; failures such as a lack of file descriptors may happen at any time", "anchors": ["daemon/face/tcp-channel.cpp: listen, accept, createFace, handleConnect", "daemon/face/tcp-transport.cpp: TcpTransport::TcpTransport"]}
{"id": "C94", "title": "Starting NFD twice does not steal the Unix socket, and stale sockets are replaced", "statement": "Whatever is at the path of the Unix socket and however earlier instances ended, an instance that listens is reached by programs that connect to the path, and at most one instance listens; an instance that finds another one listening fails and leaves the path as it is; a stale socket is replaced, and a file that is not a socket is never removed. The size of the channel is the number of its faces that are not CLOSED.", "quantifier": "all interleavings of the system calls of any number of instances, their ends and crashes, and all histories of connections", "why_tests_cant": "instances may be started at the same time or crash between any two system calls", "anchors": ["daemon/face/unix-stream-channel.cpp: listen, accept, ~UnixStreamChannel"]}
{"id": "C95", "title": "A dry run of a configuration file changes nothing", "statement": "Processing a configuration file as a dry run, whether it ends with an error or not, leaves the Content Store, the tables, the settings of the forwarder, the authorizations, the identity of the process and the faces as they are.", "quantifier": "all files, all states of the forwarder", "why_tests_cant": "a file can fail at any place of any section, after any number of sections that did not", "anchors": ["daemon/common/config-file.cpp: ConfigFile::process", "daemon/mgmt/tables-config-section.cpp: TablesConfigSection::processConfig", "daemon/mgmt/general-config-section.cpp: onConfig", "daemon/fw/forwarder.cpp: Forwarder::processConfig"]}
{"id": "C96", "title": "After a configuration file has been applied the forwarder is as the file says", "statement": "After a configuration file has been processed successfully, at start-up or by a reload at any later time: the capacity of the Content Store is the one given (by default 65536), it holds no more packets than that and all it held if they fit; its policy is the one given if it is empty, otherwise unchanged; the policy for unsolicited Data, the default hop limit, the producer regions and the authorizations are those given or their defaults; each listed prefix has its strategy and all other prefixes keep theirs. What belongs to a section that is missing stays as it is, except that at start-up the defaults for the tables are set. No assertion fails.", "quantifier": "all files, all histories of the Content Store and the tables", "why_tests_cant": "the file may be reloaded in any state of the tables", "anchors": ["daemon/mgmt/tables-config-section.cpp: TablesConfigSection", "daemon/fw/forwarder.cpp: Forwarder::processConfig", "daemon/mgmt/command-authenticator.cpp: CommandAuthenticator::processConfig", "daemon/nfd.cpp: Nfd::initializeManagement, Nfd::reloadConfigFile, Nfd::reloadConfigFileFaceSection"]}
{"id": "C97", "title": "A mistake in a configuration file is found before anything is changed", "statement": "If a configuration file contains a mistake then the dry run at start-up reports it, so that nothing is changed; when a file is reloaded, a mistake leaves what comes after it unprocessed, and a section `tables` with a mistake leaves the Content Store as it was.", "quantifier": "all files, all histories of the forwarder", "why_tests_cant": "mistakes can be anywhere in a file", "anchors": ["daemon/nfd.cpp: Nfd::initializeManagement, Nfd::reloadConfigFile", "daemon/common/config-file.cpp: ConfigFile::process", "daemon/mgmt/tables-config-section.cpp: processStrategyChoiceSection, processNetworkRegionSection"]}
{"id": "C98", "title": "UDP multicast faces follow the configuration and the network interfaces", "statement": "There is never more than one multicast face per local endpoint. After the configuration has been read, exactly those multicast faces are UP that the configuration and the interfaces call for: one per address family on each interface that is up, not loopback, able to multicast and admitted by the white- and blacklist, with the first usable address. Faces that are still called for survive a reload. When an interface appears, or gets its first usable address, its faces are made at once.", "quantifier": "all histories of configurations, interfaces, addresses and closed faces", "why_tests_cant": "configuration, interfaces and faces change in any order", "anchors": ["daemon/face/udp-factory.cpp: UdpFactory::applyMcastConfig, UdpFactory::applyMcastConfigToNetif, UdpFactory::createMulticastFace, pickAddress"]}
{"id": "C99", "title": "The answer to a command that creates a face says what happened", "statement": "Every faces/create command is answered exactly once, unless it waits for a TCP connection. 200 means that a new face with the requested endpoint, persistency, MTU and link-service options was made and put into the face table under a FaceId never used before; 409 that there is a face with this endpoint already, which is described and left alone; 400, 406 and 504 are given in exactly the cases in which the URIs are not canonical, no protocol can do what is asked, or no channel can, and then nothing changes. There is never more than one living face per channel and remote endpoint, and every living face is in the face table. No command makes NFD stop.", "quantifier": "all commands, all histories of commands, connection attempts, incoming peers, configurations, updates and closed faces", "why_tests_cant": "the answer depends on every earlier command, on connection attempts that end in any order, and on failures of system calls at any point", "anchors": ["daemon/mgmt/face-manager.cpp: FaceManager::createFace, FaceManager::afterCreateFaceSuccess", "daemon/face/tcp-factory.cpp: TcpFactory::doCreateFace", "daemon/face/udp-factory.cpp: UdpFactory::doCreateFace", "daemon/face/ethernet-factory.cpp: EthernetFactory::doCreateFace", "daemon/face/ethernet-channel.cpp: EthernetChannel::connect, EthernetChannel::createFace", "daemon/face/udp-channel.cpp: UdpChannel::connect, UdpChannel::createFace", "daemon/face/tcp-channel.cpp: TcpChannel::connect, TcpChannel::createFace", "daemon/fw/face-table.cpp: FaceTable::add"]}
{"id": "C100", "title": "The command line tool reads arguments by its grammar", "statement": "nfdc accepts a list of arguments exactly if it can be read as positional arguments, in the order in which they are defined and without jumping over a required one, followed by named arguments in any order, with every required argument given; then every argument has the value that its text means for its type, and the last one given counts. Every combination of values of the defined arguments can be given, by position or by name. The command is the one whose noun and verb are given.", "quantifier": "all command definitions, all lists of arguments of any length, all characters", "why_tests_cant": "a token may be the name of one argument and a value of another, and the decision depends on all tokens before it", "anchors": ["tools/nfdc/command-definition.cpp: CommandDefinition::parse, CommandDefinition::parseValue", "tools/nfdc/command-parser.cpp: CommandParser::parse"]}
{"id": "C101", "title": "A batch of commands is executed in order, or not at all", "statement": "nfdc with a batch file executes the commands of the file, one per line after joining continued lines, in order, and stops at the first that fails with its exit code; blank lines and comments are skipped. If a line is not a valid command, none is executed. Words may be quoted, and every word can be written. A single command is executed as given on the command line.", "quantifier": "all files, all commands, all outcomes of commands", "why_tests_cant": "a file may contain any sequence of characters, and the effect of a mistake anywhere must be that nothing is done", "anchors": ["tools/nfdc/main.cpp: main, processLine"]}
{"id": "C102", "title": "The command line tool asks NFD for what the user asked for and reports what happened", "statement": "Each face and route command of nfdc sends at most the requests that its arguments stand for: face destroy destroys the one face named, and nothing if there is none or more than one; route add registers the route with the options given toward the one face named, creating a face only if there is none; route remove unregisters the route toward each face named once; face create asks for a face with the options given and, if it exists, for exactly the changes that are needed; the lists show what NFD answered, filtered as asked. The exit code is 0 exactly if all requests succeeded, and otherwise says which of the documented reasons applied.", "quantifier": "all arguments, all behaviours of NFD, which may answer each request depending on everything asked before", "why_tests_cant": "the answers of NFD are arbitrary and may change between requests", "anchors": ["tools/nfdc/face-module.cpp: FaceModule::create, FaceModule::destroy, FaceModule::list", "tools/nfdc/rib-module.cpp: RibModule::add, RibModule::remove, RibModule::list, RibModule::show", "tools/nfdc/face-helpers.cpp: FindFace, canonize"]}
{"id": "C103", "title": "Ethernet channels and multicast faces follow configuration and interfaces", "statement": "After the section face_system.ether has been applied there is exactly one live Ethernet multicast face on every interface that is up, Ethernet, has an address, can multicast and passes the whitelist, in the group configured, and none elsewhere; faces that are still wanted are not touched, all faces are in the face table, and an interface that appears later gets its face. Every usable interface has one channel, which listens if this is configured; channels are never removed, and keep listening and keep their idle timeout.", "quantifier": "all sequences of configurations, appearing, changing and disappearing interfaces, faces being closed, and failures to open a device", "why_tests_cant": "any number of interfaces and any interleaving of reconfiguration with faces being closed", "anchors": ["daemon/face/ethernet-factory.cpp: EthernetFactory::applyConfig, applyUnicastConfigToNetif, applyMcastConfigToNetif, createChannel, createMulticastFace", "daemon/face/ethernet-channel.cpp: EthernetChannel::listen"]}
{"id": "C104", "title": "The face_system section is checked completely and applied as written", "statement": "Checking the section face_system succeeds exactly if it is well formed (known subsections, once each; known options with values of the right kind; at least one protocol family where one is needed) and changes nothing. A well-formed section can be applied if sockets can be opened. Once it is applied, the settings, the channels of TCP, UDP, Unix and WebSocket with the ports and addresses named and whether they accept peers, the multicast faces, the Ethernet channels and the FaceUri schemes that faces can be made for are those the section says; channels that exist stay as they were, and none are made that are not asked for. Starting with a file whose section is not well formed changes nothing.", "quantifier": "all sections, all states reached by any sequence of checked and applied sections, interface changes and closing faces, all outcomes of opening sockets", "why_tests_cant": "options may come in any combination and order, may be repeated, and take effect in a state left by any earlier configuration", "anchors": ["daemon/face/face-system.cpp: FaceSystem::processConfig", "daemon/face/tcp-factory.cpp: TcpFactory::doProcessConfig", "daemon/face/udp-factory.cpp: UdpFactory::doProcessConfig", "daemon/face/unix-stream-factory.cpp: UnixStreamFactory::doProcessConfig", "daemon/face/websocket-factory.cpp: WebSocketFactory::doProcessConfig", "daemon/face/ethernet-factory.cpp: EthernetFactory::doProcessConfig", "daemon/face/netdev-bound.cpp: NetdevBound::processConfig"]}
{"id": "C105", "title": "HopLimit bounds how far an Interest gets in a network", "statement": "In a network of forwarders, an Interest that a forwarder sends on a link stems from an Interest for the same that an application has sent into some forwarder; if that had HopLimit h and the Interest has crossed n links since, then it carries a HopLimit of at least 1 and at most h-1-n. So if applications use HopLimits of at most h, the Interest arrives only at forwarders fewer than h links away, and with h=1 it is sent on no link.", "quantifier": "all topologies, all numbers of forwarders, all interleavings of their events, all losses, duplications, reorderings and delays on links, all supplied strategies, all management and configuration actions, all behaviours of applications", "why_tests_cant": "a test runs one topology with one schedule; here the Interest may be aggregated, retransmitted, probed with a new nonce, or sent to a new next hop long after it came", "anchors": ["daemon/fw/forwarder.cpp: Forwarder::onIncomingInterest, onOutgoingInterest", "daemon/face/generic-link-service.cpp: encodeLpFields"]}
{"id": "C106", "title": "Forwarders make up no packets: across a network, Data and Nacks answer Interests, and Data is what a producer made", "statement": "In a network of forwarders, whatever Data a forwarder sends on a face answers an Interest sent before by whoever is behind that face (an application, or the neighbouring forwarder); a Nack likewise; every Data stored or sent anywhere is one that some application sent into the network, unchanged except for the caching policy; every Interest is for something that an application asked for. The supplied strategies make up no packets.", "quantifier": "all topologies, all numbers of forwarders, all interleavings of their events, all losses, duplications, reorderings and delays on links, all strategies that only pass on what they are shown, all management and configuration actions, all behaviours of applications", "why_tests_cant": "a packet made up or misdirected by one forwarder after some history would have to be provoked; the property is about all histories of all networks", "anchors": ["daemon/fw/forwarder.cpp: Forwarder::onIncomingData, onContentStoreHit, onOutgoingData, onOutgoingNack", "daemon/fw/strategy.cpp: Strategy::sendData, sendDataToAll, sendNack", "daemon/table/cs.cpp: Cs::insert, Cs::find"]}
{"id": "C107", "title": "Along a path of forwarders that have a route, an Interest gets to the producer and the Data gets back", "statement": "Given a path of forwarders joined by links such that each one's strategy passes a fresh Interest on to the next, that has no looping, cached or scope-violating condition against it, and whose answer comes back before the InterestLifetime has passed at any node: when the consumer's application sends the Interest to the first, there is a course of events (nothing but the deliveries along the path, the producer's answer and the passage of time) after which the first forwarder has sent the Data to the consumer. Best-route passes on to the eligible next hop with the lowest cost, multicast to every eligible next hop.", "quantifier": "all path lengths, all states of the forwarders that a history of events can lead to (other pending Interests, Content Store contents, routes and faces included), all waiting times less than the InterestLifetime, all Interests and matching Data", "why_tests_cant": "a test sets up one small topology in fresh state; here the forwarders may have any history and the path any length", "anchors": ["daemon/fw/forwarder.cpp: Forwarder::onIncomingInterest, onContentStoreMiss, onOutgoingInterest, onIncomingData, onOutgoingData", "daemon/fw/best-route-strategy.cpp: BestRouteStrategy::afterReceiveInterest", "daemon/fw/multicast-strategy.cpp: MulticastStrategy::afterReceiveInterest"]}
{"id": "C108", "title": "ndn-autoconfig succeeds exactly if a hub is connected, always ends in one-shot mode, and keeps retrying as a daemon", "statement": "In one-shot mode ndn-autoconfig ends after a bounded number of answers, with exit code 0 if and only if NFD has given it a face to a hub and has granted the routes / and /localhop/nfd on it. The stages (multicast discovery, search domains, NDN-FCH, identity name) are tried in this order, each once; the first hub URI that a stage comes up with is the only one tried, and the program gives up without trying one only after all stages. Routes are only registered on faces that NFD has named for a hub. As a daemon it always has a run under way or the next one due within an hour, and it keeps running until it is told to end. The last part is violated.", "quantifier": "all sequences of answers by NFD, the network and the host in any order and with any delays, all network changes, both modes", "why_tests_cant": "tests run the procedure with given results of the stages; what counts is every interleaving of the answers with timers, network changes and failures", "anchors": ["tools/ndn-autoconfig/procedure.cpp: Procedure::runOnce, connect, registerPrefixes", "tools/ndn-autoconfig/stage.cpp: Stage::start, provideHubFaceUri, fail", "tools/ndn-autoconfig/multicast-discovery.cpp: MulticastDiscovery", "tools/ndn-autoconfig/main.cpp: runDaemon, main"]}
{"id": "C109", "title": "nfd-autoreg registers the prefixes on exactly the admitted faces", "statement": "nfd-autoreg requests, for each face that the dataset at start-up or a later notification shows and that is an on-demand TCP or UDP face and admitted by the white list and not by the black list, the registration of every prefix given, with the cost given; for prefixes meant for all faces, on every TCP or UDP face that is not multicast. Faces of other kinds get none. It registers nothing else, never on a local face (violated at start-up), and does not start without any prefix.", "quantifier": "all option values, all datasets and notifications in any order, all addresses", "why_tests_cant": "tests give a few faces; the lists of networks combine with all addresses and schemes, and notifications come in any order", "anchors": ["tools/nfd-autoreg.cpp: AutoregServer", "daemon/face/network-predicate.hpp: NetworkPredicateBase", "core/network.hpp: doesContain"]}
{"id": "C110", "title": "WebSocket faces: messages are packets, dead peers are noticed, answering ones are left alone", "statement": "Each message that a WebSocket peer sends while its face exists becomes one packet of the face, the TLV element that the message begins with, or nothing if there is none; in order. Each packet sent becomes one message, in order, and the only one to be lost is the one whose loss closes the face. A face goes from UP by FAILED or CLOSING to CLOSED, once, and is gone when its connection is. No face outlives the last pong (or the opening) by more than 15 seconds, and none is given up for want of a pong unless 5 seconds have passed after a ping without one. The counters of pings and pongs are truthful. What happens on one connection does not affect others, no peer can end the process, and packets above the maximum NDN packet size are not taken. The last two parts are violated.", "quantifier": "all numbers of connections, all sequences of messages, pongs, close frames, losses of connections, sends and timer events in any order and at any time", "why_tests_cant": "tests open a few connections and wait for one ping or one timeout; the property is about all interleavings of peers, timers and sends", "anchors": ["daemon/face/websocket-transport.cpp: WebSocketTransport", "daemon/face/websocket-channel.cpp: WebSocketChannel::handleOpen, handleMessage, handlePong, handlePongTimeout, handleClose"]}
{"id": "C111", "title": "A face that fails while a packet is sent on it does not disturb the forwarding in progress", "statement": "If sending a packet on a face fails and closes the face, the packet is still sent on every other face it is to go to, exactly once and in order, no other face is removed, and no memory is used that has been freed in the course of removing the face. Holds for Data and Nacks and for strategies that send to one next hop; violated for Interests by the multicast, access, self-learning and ASF strategies.", "quantifier": "all sets of faces that fail, all next hops and records, all decisions on eligibility and suppression", "why_tests_cant": "the face has to fail within the call that sends the packet, and most tests use faces that never fail; whether freed memory is used does not show in results", "anchors": ["daemon/fw/forwarder.cpp: Forwarder::onOutgoingInterest, onOutgoingData, onOutgoingNack, onNewNextHop", "daemon/fw/strategy.cpp: Strategy::sendDataToAll, sendNacks", "daemon/fw/multicast-strategy.cpp: afterReceiveInterest", "daemon/fw/access-strategy.cpp: multicast", "daemon/fw/self-learning-strategy.cpp: broadcastInterest, multicastInterest", "daemon/fw/asf-strategy.cpp: forwardInterest", "daemon/fw/face-table.cpp: FaceTable::remove", "daemon/table/cleanup.cpp: cleanupOnFaceRemoval", "daemon/face/websocket-transport.cpp: doSend, processErrorCode"]}
{"id": "C112", "title": "nfdc cs erase erases what the user asked for and reports it", "statement": "If nothing interferes, `nfdc cs erase` ends with exit code 0, has erased the packets under the prefix (at most as many as the user gave), and no others, and prints how many. Whatever else happens to the store and to the commands meanwhile, with a count it ends within \u2308count/256\u2309 commands, never erases more than count, exits with 0 exactly if all commands were answered, and prints the sum of the answers. Violated while the store does not serve Data: then only 256 packets are erased, and success is reported.", "quantifier": "all histories of the Content Store, prefixes, counts, concurrent operations on the store and losses of commands and answers", "why_tests_cant": "the loop spans two programs and its behaviour depends on what the store contains at each command; tests run nfdc against scripted answers", "anchors": ["tools/nfdc/cs-module.cpp: CsModule::erase", "daemon/mgmt/cs-manager.cpp: CsManager::erase", "daemon/table/cs.cpp: Cs::eraseImpl, Cs::findImpl"]}
{"id": "C113", "title": "nfdc status report prints a well-formed document that says what NFD has said", "statement": "Whatever NFD answers, the XML report is a well-formed document, and a reader of XML finds in it, for each section, exactly the items NFD has listed, in order, with every value: texts with markup characters in them, numbers, durations to the millisecond, flags, optional values. The exit code is 0 exactly if every section was fetched, and otherwise the number printed names a section that failed and the code of its failure; each section shows what was answered for it, in whichever order the answers come.", "quantifier": "all contents of the datasets, and all orders and failures of the answers", "why_tests_cant": "tests compare the output for one dataset with a golden text; what is in the names, URIs and counters is unbounded and partly chosen by others", "anchors": ["tools/nfdc/format-helpers.cpp: xml::Text, xml::Flag, xml::formatDuration", "tools/nfdc/status.cpp: reportStatus", "tools/nfdc/status-report.cpp: StatusReport::collect, formatXml", "tools/nfdc/face-module.cpp: formatItemXml", "tools/nfdc/fib-module.cpp: formatItemXml", "tools/nfdc/rib-module.cpp: formatItemXml", "tools/nfdc/forwarder-general-module.cpp: formatItemXml", "tools/nfdc/cs-module.cpp: formatItemXml", "tools/nfdc/channel-module.cpp: formatItemXml", "tools/nfdc/strategy-choice-module.cpp: formatItemXml"]}
{"id": "C114", "title": "nfdc strategy shows and changes the strategy that NFD uses", "statement": "`nfdc strategy show` prints the strategy with which NFD forwards Interests of this name and the prefix for which it was chosen. `strategy set` exits with 0 exactly if the strategy can be used for the prefix; it is then in force, no other choice has changed, and `show` prints it; it exits with 7 exactly if NFD does not know the strategy, and whenever the code is not 0 and NFD has answered nothing has changed. `strategy unset` refuses the root without sending anything, and afterwards `show` prints for the prefix what it printed for the one above.", "quantifier": "all histories of the tables, prefixes, strategies and outcomes of the request", "why_tests_cant": "the result depends on all choices made before, in whichever order the name tree enumerates them; tests use a dataset of a few entries", "anchors": ["tools/nfdc/strategy-choice-module.cpp: StrategyChoiceModule::show, set, unset", "daemon/mgmt/strategy-choice-manager.cpp", "daemon/table/strategy-choice.cpp: findEffectiveStrategy"]}
{"id": "C115", "title": "nfdc cs config sets what was given and leaves the rest", "statement": "If NFD answers, `nfdc cs config` exits with 0 and prints the capacity and the switches in force; those given by the user have the given values and the others are unchanged; the store keeps the packets it has, down to the new capacity and no further. Without an answer nothing is printed and the exit code is 1.", "quantifier": "all histories of the Content Store, all combinations of arguments and outcomes of the request", "why_tests_cant": "tests check which parameters are sent and how one answer is printed, separately from the handler and the store", "anchors": ["tools/nfdc/cs-module.cpp: CsModule::config", "daemon/mgmt/cs-manager.cpp: CsManager::changeConfig", "daemon/table/cs-policy.cpp: Policy::setLimit"]}
{"id": "C116", "title": "Strategies do not see each other's measurements", "statement": "A strategy that asks for the measurements of a name, of a FIB entry, of the parent of an entry or of the longest matching entry gets an entry exactly when it is the strategy in charge of the name of this entry, and nothing otherwise. No entry is given to two strategies, and what a strategy finds stored on an entry was stored by a strategy of its own type.", "quantifier": "all histories of the tables, strategies, names and predicates", "why_tests_cant": "which entries are visible depends on every choice made for a prefix of the name and on its changes; tests look at three strategies", "anchors": ["daemon/table/measurements-accessor.hpp: MeasurementsAccessor", "daemon/table/measurements-accessor.cpp: MeasurementsAccessor", "daemon/table/strategy-choice.cpp: findEffectiveStrategy, changeStrategy"]}
{"id": "C117", "title": "Which measurements the ASF strategy uses", "statement": "For every Interest that ASF forwards it finds measurements: those of the longer of the FIB prefix and its own prefix. Data, Nacks and timeouts for the Interest that come within the lifetime of the measurements are recorded on the same entry.", "quantifier": "all histories of the tables, routes, strategy choices, names, forwarding hints and events in between", "why_tests_cant": "it depends on the relation between the FIB prefix, the prefix of the strategy, the name and all measurements that other Interests have left", "anchors": ["daemon/fw/asf-measurements.cpp: AsfMeasurements::getOrCreateNamespaceInfo, getNamespaceInfo", "daemon/fw/asf-strategy.cpp: afterReceiveInterest, beforeSatisfyInterest, onTimeoutOrNack"]}
{"id": "C118", "title": "Changing the strategy while ASF has timers pending is safe", "statement": "Whenever an operator sets, changes or unsets strategies, no pending timeout or probe of the ASF strategy runs on a strategy object that has been destroyed.", "quantifier": "all histories of strategy commands, forwarded Interests, table operations, cancellations and times at which events run", "why_tests_cant": "it depends on the interleaving of commands with events that are due up to a minute later, and the effect of using freed memory may not show", "anchors": ["daemon/fw/asf-probing-module.cpp: ProbingModule::scheduleProbe", "daemon/fw/asf-strategy.cpp: AsfStrategy::forwardInterest", "daemon/table/strategy-choice.cpp: StrategyChoice::insert, erase, changeStrategy"]}
{"id": "C119", "title": "Ethernet faces carry packets between peers and groups, and end properly", "statement": "A packet sent on an Ethernet face is delivered unchanged and without padding by the unicast face of the addressed peer or by the multicast faces of the group on all other hosts, and by no other face; a face delivers each packet that reaches it once and in order, with the sender if it is multicast. A face is UP exactly while the network interface is running until it is closed or fails; permanent faces fail never; as long as it is UP or DOWN it goes on receiving; an on-demand face is closed if and only if there was no packet for the idle timeout, within two timeouts; whatever happens, no invalid state change or use of released resources occurs.", "quantifier": "all frames, packets and addresses; all histories of frames, sends, failures, interface changes, closing at any time (also while a packet is processed), timers, and orders of handlers", "why_tests_cant": "the tests need a real network device; closing and failures interleave with queued handlers in unboundedly many ways, and the effect of using a closed capture may not show", "anchors": ["daemon/face/ethernet-transport.cpp: doSend, handleRead, receivePayload, doClose, handleError, handleNetifStateChange", "daemon/face/unicast-ethernet-transport.cpp: scheduleClosureWhenIdle, afterChangePersistency", "daemon/face/multicast-ethernet-transport.cpp", "daemon/face/ethernet-protocol.cpp: checkFrameHeader", "daemon/face/transport.cpp: send, receive, close, setState"]}
{"id": "C120", "title": "Timeouts of the access strategy do not outlive the strategy", "statement": "When a timeout runs that the access strategy has set for an Interest, the strategy object that has set it still exists, however strategies have been set, replaced and unset in the meantime. An Interest has at most one pending timeout; it is cancelled when the Interest is satisfied or removed, or when a strategy of another type takes over.", "quantifier": "all histories of strategy changes, operations on the tables, Interests sent by the access strategy, Data, and timeouts, for all names and prefixes", "why_tests_cant": "the use of a destroyed object depends on which of several nested strategies was in charge when the Interest was sent and on all changes since, and often shows no effect", "anchors": ["daemon/fw/access-strategy.cpp: sendToLastNexthop, afterRtoTimeout, beforeSatisfyInterest", "daemon/fw/access-strategy.hpp: PitInfo", "daemon/table/strategy-choice.cpp: changeStrategy, clearStrategyInfo, insert, erase"]}
{"id": "C121", "title": "ndn-autoconfig reads hubs from DNS answers correctly and safely", "statement": "If the answer to the DNS query is a well-formed message with an SRV record, the lookup gives the FaceUri of the target host with the port of the record, however the names in it are written; without an answer it gives an error; and whatever the octets of the answer are, it ends and reads nothing outside the buffer.", "quantifier": "all octet sequences and lengths that a name server and the resolver can return; all names, also compressed ones with any chain of pointers", "why_tests_cant": "the answer comes from the network; names can be written in unboundedly many ways, and a read outside the buffer may go unnoticed", "anchors": ["tools/ndn-autoconfig/dns-srv.cpp: parseSrvRr, querySrvRr, querySrvRrSearch"]}
{"id": "C122", "title": "Self-learning finds and announces paths as it should", "statement": "Under the self-learning strategy an unmarked Interest without a route goes to all faces off this host within its scope, an Interest with a route to its next hops with the NonDiscovery mark, and a marked Interest without a route is refused. A route is announced to the RIB only through a face that was sent an unmarked Interest which the announcing Data satisfies. Data that answers an Interest reaches all downstreams that wait, at once or, if one of them needs an announcement, when it was found; and no history makes the strategy fail.", "quantifier": "all histories of Interests, Data, Nacks, timers and face and strategy changes, all answers of the RIB and interleavings with its thread", "why_tests_cant": "the strategy remembers marks in PIT records and passes work between two threads; what goes wrong depends on the order of these events", "anchors": ["daemon/fw/self-learning-strategy.cpp: afterReceiveInterest, afterReceiveData, afterReceiveNack, asyncProcessData, needPrefixAnn", "daemon/fw/self-learning-strategy.hpp: InRecordInfo, OutRecordInfo"]}
{"id": "C123", "title": "NFD ends when told to or when a part has failed, as a whole, and says so", "statement": "After SIGINT or SIGTERM, and after a failure in the forwarder's or the RIB manager's thread, the process ends, however the two threads are scheduled. It never ends otherwise, and never leaves one of them behind. The exit code is 0 exactly if nothing failed, 4 only if privileges were the problem, and 1 otherwise. No schedule makes a thread use what the other has destroyed.", "quantifier": "all interleavings of the two threads, all outcomes of the RIB service's set-up and of handlers, all moments of signals and failures", "why_tests_cant": "the start-up and shutdown hand-shake depends on the order of a few instructions in two threads", "anchors": ["daemon/main.cpp: NfdRunner::run, terminate", "daemon/common/global.cpp: getGlobalIoService, getMainIoService, getRibIoService, setMainIoService, setRibIoService"]}
{"id": "C124", "title": "The RIB manager starts, connects and takes commands as the configuration file says", "statement": "The RIB manager starts exactly if the configuration file says how to reach the forwarder and its section rib has no mistake; a section that passes the check is never applied half. It connects where the forwarder accepts peers. Commands under /localhost/nfd and /localhop/nfd are carried out exactly if the rules configured for that prefix accept them, and none without rules. Prefixes are propagated with the configured parameters, and never while commands from the local network are taken.", "quantifier": "all configuration files, all validators, all commands", "why_tests_cant": "files with any order and repetition of sections and options; two parts of the program read the same options in different ways", "anchors": ["daemon/rib/service.cpp: makeLocalNfdTransport, Service::Service, checkConfig, applyConfig", "daemon/mgmt/rib-manager.cpp: applyLocalhostConfig, enableLocalhop, applyPaConfig, registerWithNfd, makeAuthorization", "daemon/rib/readvertise/host-to-gateway-readvertise-policy.cpp: HostToGatewayReadvertisePolicy"]}
{"id": "C125", "title": "Face notifications and the list of faces agree with the faces there are", "statement": "Whoever reads the list of faces and then every notification knows the faces at any later moment: each face is created once, goes down and up in turn, and is destroyed once, never again named afterwards; the last that was told about up or down is the state of the face. The list has each face once, with its properties, and no closed face. Each notification carries the properties that the face has at that moment. No handler of a face that is gone is kept.", "quantifier": "all histories of faces made, added (also again), changing state or properties and closed, before and after the manager starts", "why_tests_cant": "any number of faces and events in any order, with handlers that run inside one another", "anchors": ["daemon/fw/face-table.cpp: FaceTable::add, addReserved, addImpl, remove", "daemon/mgmt/face-manager.cpp: FaceManager::FaceManager, notifyFaceEvent, connectFaceStateChangeSignal, listFaces", "daemon/face/transport.cpp: Transport::setState"]}
{"id": "C126", "title": "ASF probing chooses each face with the documented probability, and always chooses one", "statement": "Among n measured faces, the face of rank j is probed when the random number is in its part of the interval from 0 to 1, which has the length (n+1-j)/(1+...+n); whatever random number below 1 is drawn, some face is chosen.", "quantifier": "all rankings, all random numbers", "why_tests_cant": "the random number is one of 2^53, and only the last of them fails; floating point sums differ for each number of faces", "anchors": ["daemon/fw/asf-probing-module.cpp: chooseFace"]}
{"id": "C127", "title": "The internal face delivers what was sent, once and in order, never inside the sending call", "statement": "Each packet that is sent while the management's end and the forwarder's end of an internal face are connected arrives at the other end once, in order, and not inside the call that sends it; others are lost. Reconnecting, closing the face and destroying the client are safe at any moment, and no packet reaches the forwarder from a face that has been removed.", "quantifier": "all histories of connecting, sending, closing and turns of the event loop", "why_tests_cant": "any interleaving of sends with closing and with waiting functions; freed objects", "anchors": ["daemon/face/internal-transport.cpp: InternalForwarderTransport, InternalClientTransport", "daemon/face/transport.cpp: Transport::close, Transport::send", "daemon/fw/face-table.cpp: FaceTable::remove"]}
{"id": "C128", "title": "ndn-autoconfig takes the hub from the NDN-FCH service only from a successful answer, and the right word of it", "statement": "For an http URL the NDN-FCH stage asks the host and port given (80 if none) for the path given (/ if none). It offers the UDP FaceUri of the first word of the body exactly if the answer is an HTTP answer with status 200 and has such a word; any other answer makes the stage fail, and never leads to undefined behaviour.", "quantifier": "all URLs and all sequences of bytes that a server can answer", "why_tests_cant": "the answer is any sequence of bytes from the network", "anchors": ["tools/ndn-autoconfig/ndn-fch-discovery.cpp: Url, NdnFchDiscovery::doStart"]}
{"id": "C129", "title": "ASF probes a namespace at most once per probing interval, and does probe", "statement": "With any parameters that are accepted, the ASF strategy sends two probes for the same FIB entry never closer than the probing interval; and once Interests have been forwarded for a FIB entry and an interval (five seconds at first) has passed since, the next Interest for which another face can be tried is used for a probe.", "quantifier": "all histories of Interests, retransmissions, Data, Nacks, timeouts, timers and expiries, all FIB entries and namespaces, all random delays", "why_tests_cant": "the flag is kept in a measurements entry whose lifetime is extended by other events, and set by timers that do not know of it: only some interleavings over minutes show the difference", "anchors": ["daemon/fw/asf-probing-module.cpp: ProbingModule::scheduleProbe, isProbingNeeded, afterForwardingProbe", "daemon/fw/asf-measurements.cpp: AsfMeasurements::getNamespaceInfo, getOrCreateNamespaceInfo", "daemon/fw/asf-strategy.cpp: AsfStrategy::sendProbe", "daemon/table/measurements.cpp: Measurements::extendLifetime, cleanup"]}
{"id": "C130", "title": "The log section decides the level of every module, at a start as well as at a reload", "statement": "After a configuration file was read, each logging module has the level of the last line that names it (short names are modules of NFD, a star stands for any rest); modules of NFD that no line names have the default level, INFO if none is given. A file with a wrong level is refused and changes no level. Reading a file again has the same effect as a start with it.", "quantifier": "all sections, all modules, all levels set before", "why_tests_cant": "lines with stars overlap in any order, and earlier readings leave levels behind", "anchors": ["daemon/mgmt/log-config-section.cpp: onConfig", "daemon/nfd.cpp: Nfd::configureLogging"]}
{"id": "C131", "title": "The text lists of nfdc tell what the forwarder reported", "statement": "Two datasets for which nfdc prints the same text are the same: the same number of faces, FIB entries, RIB entries, strategy choices or channels, in the same order, with the same fields, nexthops and routes, up to times in whole seconds or milliseconds and flags without a name.", "quantifier": "all pairs of datasets of the five kinds, of any length, with optional fields present or not", "why_tests_cant": "a test compares the text for a few datasets; that no other dataset gives the same text is about all pairs", "anchors": ["tools/nfdc/face-module.cpp: formatStatusText, formatItemText", "tools/nfdc/fib-module.cpp: formatItemText", "tools/nfdc/rib-module.cpp: formatEntryText, formatRouteText", "tools/nfdc/strategy-choice-module.cpp: formatItemText", "tools/nfdc/channel-module.cpp: formatItemText", "tools/nfdc/format-helpers.cpp: Separator, ItemAttributes"]}
{"id": "C132", "title": "The access strategy learns the next hop of a prefix from Data, and no Data stops the forwarder", "statement": "When Data comes back, the access strategy remembers for the prefix of the Data (its name without the last component) the face it came from. For eight seconds Interests below this prefix find that information, which names the face of the latest Data and has round-trip times of this face only. Information left by another strategy is never used. No Data that satisfies an Interest stops the forwarder.", "quantifier": "all names, all settings of strategies, all table operations in between, all sequences of Data, faces going away and entries being cleared", "why_tests_cant": "strategies can be set at any prefixes, Data names can be longer than Interest names by any amount, and the information lives through any sequence of table operations", "anchors": ["daemon/fw/access-strategy.cpp: updateMeasurements, findPrefixMeasurements, addPrefixMeasurements", "daemon/table/measurements-accessor.hpp", "daemon/fw/forwarder.cpp: onIncomingData"]}
{"id": "C133", "title": "The access strategy tries the learned next hop alone, and all the others when this fails", "statement": "A new Interest for whose prefix a working next hop is known goes to this next hop only, if it is still a next hop, is not where the Interest came from and may get the Interest. Otherwise, and for a retransmission after 100 ms, it goes to every next hop that may get it. When the learned next hop does not answer in time, the Interest goes to every other one. A new Interest is given up at once exactly if it can be sent nowhere.", "quantifier": "all routes, learned next hops, faces, pending Interests and times", "why_tests_cant": "next hops, scopes, hop limits, the learned next hop and earlier transmissions combine freely", "anchors": ["daemon/fw/access-strategy.cpp: afterReceiveInterest, sendToLastNexthop, multicast, afterRtoTimeout"]}
{"id": "C134", "title": "Every frame received is delivered, counted or kept, with known exceptions", "statement": "A frame that a face receives leads to at most one packet for forwarding or one count of nInLpInvalid, nInNetInvalid or nDuplicateSequence. It leads to none of these only if it has no fragment; if its fragment is kept, with a timer, until the message is complete; if its fragment is unusable (reassembly is disabled, FragIndex is not below FragCount, FragCount is above the limit, the Sequence is missing, the message has another number of fragments or has this one already); or if it completes an Interest with NextHopFaceId and the face does not permit local fields. An unusable fragment changes nothing in reassembly.", "quantifier": "all states of the link service, options, endpoints and LpPackets", "why_tests_cant": "fields, options and the state of reassembly combine freely, and frames come from anyone", "anchors": ["daemon/face/generic-link-service.cpp: doReceivePacket, decodeNetPacket", "daemon/face/lp-reassembler.cpp: receiveFragment"]}
{"id": "C135", "title": "Every packet sent goes out whole or is counted", "statement": "A network packet that a face is given to send is either refused with one count of nFragmentationErrors and no other effect, which takes fragmentation enabled and a link with an MTU, or all its octets are put into frames, in order and nothing else, each handed to the transport or counted in nOutOverMtu. The header fields permitted by the options are on the first frame and on no other; a congestion mark of the packet is kept or replaced by 1. A single frame has no FragIndex and FragCount; several are numbered from 0, know their number, and have consecutive Sequences after the last one used.", "quantifier": "all states of the link service, options, MTUs, queue lengths, packet kinds, tags and packets", "why_tests_cant": "options, sizes, pending Acks and the counter of Sequences, which wraps around, combine freely", "anchors": ["daemon/face/generic-link-service.cpp: doSendInterest, doSendData, doSendNack, sendNetPacket, sendLpPacket, encodeLpFields, assignSequences", "daemon/face/lp-fragmenter.cpp: fragmentPacket"]}
{"id": "C136", "title": "What one end of a link sends, the other passes on", "statement": "If one end of a link is given an Interest, Data or Nack and does not refuse it, and the other end receives the frames made for it, then the other end passes on a packet of the same kind with the same octets, with the PIT token of an Interest, the reason of a Nack, the congestion mark of the packet or 1, and NonDiscovery or the prefix announcement if both ends have self-learning enabled, and no NextHopFaceId or CachePolicy. This needs reassembly enabled and as many fragments permitted, unless there is a single frame; no earlier frame from that endpoint claims to belong to the same message; and with reliability at the receiver none of the Sequences has been received before.", "quantifier": "all states of the sender, all earlier histories of the receiver, all options and MTUs of both, all packets and tags", "why_tests_cant": "the two ends have independent options and histories, and sizes and fields vary without bound", "anchors": ["daemon/face/generic-link-service.cpp: sendNetPacket, doReceivePacket, encodeLpFields, decodeInterest, decodeData, decodeNack", "daemon/face/lp-fragmenter.cpp: fragmentPacket", "daemon/face/lp-reassembler.cpp: receiveFragment"]}
