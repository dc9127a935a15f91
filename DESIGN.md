# Formal model of NFD in Lean 4 - design

This file is written before the proofs and revised as the model grows.

## Approach

* `lean/Verif/<Area>/Model.lean` holds executable definitions written after the C++ code; each cites the file and lines
  it models and says where it simplifies.
* `lean/Verif/<Area>/Spec.lean` holds small, independent specifications (what a user expects).
* `lean/Verif/<Area>/Props.lean` holds the property theorems with non-vacuity examples beside them.
  Helper lemmas are in `Lemmas.lean`.
* Undefined behaviour (assertion failure, dangling iterator, null dereference) is an explicit outcome of the model, never
  a silent default.
* Where the code violates a property, the negation is proved with a concrete witness and a `_partial` theorem
  states what does hold.

## Trusted base

* Lean 4.33.0 kernel; the axioms `propext`, `Classical.choice`, `Quot.sound` at most.
* The reading of the C++ code embodied in the model (the code cannot be compiled here).
* ndn-cxx library semantics used by the code (Name order, successor, `Interest::matchesData`, TLV sizes) - modelled from
  the NDN packet specification and the library's documented behaviour.

## Plan per property

* **C01** Content store never exceeds its capacity: Cs model (state = ordered entry list + policy state + clock); invariant size<=limit by induction over ops, both policies.
* **C02** A Content Store hit is a stored, matching, fresh packet: Same model with ghost history; invariant that every entry stems from an insertion; find theorem.
* **C03** A Content Store lookup does not miss a usable packet: Name order model (canonical order, successor); lemma prefix <-> range; find = first satisfying entry of the sorted store. Negation witness for names with a digest component.
* **C04** Content Store stores one packet per full name and refreshes on re-insertion: Invariant: entry list strictly sorted by (name,digest); insert lemma.
* **C05** Content Store erase removes exactly the requested packets: erase theorem against a filter/take/drop specification over the sorted list.
* **C06** LRU evicts the least recently used packet: Ghost time-of-last-use per entry; invariant: LRU queue sorted by last use.
* **C07** Priority-FIFO evicts unsolicited, then stale, then oldest fresh packets: PriorityFifo queues as lists with ghost enqueue times; theorem on each eviction.
* **C08** Replacement policies never reference a removed packet: Model dereference of a removed entry as an explicit failure outcome; invariant implies it is never reached.
* **C09** Dead Nonce List remembers each nonce for its guaranteed number of insertions: DNL as a list queue; invariant on the position of an entry; exact capacity arithmetic (floats abstracted to exact rationals 6/5 and 9/10, floor).
* **C10** Dead Nonce List capacity stays in its bounds and its size follows: Same model, bounds by induction.
* **C11** Name tree hashtable behaves as a map from names to nodes: Bucket array of lists with arbitrary hash; refinement to a finite map.
* **C12** Name tree contains every ancestor and only useful leaves: Tree model over the map; invariants by induction.
* **C13** Longest prefix match returns the longest acceptable prefix: LPM loops modelled as written; specification = longest prefix in the list of prefixes.
* **C14** Enumerations visit each qualifying node exactly once: Iterators modelled as step functions over the table; run to end; compare to specification list.
* **C15** FIB longest prefix match: FIB over the name tree map; LPM theorem from C13.
* **C16** FIB nexthop lists are duplicate-free and cost-ordered: FIB entry list with insertion + sort; invariants.
* **C17** New-nexthop notification reports the nexthop that was added: Model the iterator as an index taken before sorting; prove negation, and a partial theorem when the index is unaffected.
* **C18** PIT aggregates Interests by name and selectors: PIT as entries attached to name-tree nodes; invariants.
* **C19** PIT returns exactly the Interests satisfied by a Data: Walk over prefix nodes; equality with the filter of all entries.
* **C20** PIT in-records and out-records are per face and carry the latest Interest: Record lists; invariants.
* **C21** Effective strategy is that of the longest prefix: SC over name tree map; theorem from C13.
* **C22** Strategy change resets strategy state exactly where the strategy changes: changeStrategy enumeration model; partial theorem plus negation for digest-named PIT entries.
* **C23** Measurements entries live at least as long as requested: Measurements with timers; invariants over op sequences with clock.
* **C24** Removing a face leaves no trace of it in the tables: cleanup function over table state.
* **C25** /localhost scope is never violated: Forwarder transition system, strategies are arbitrary action producers; invariant over output traces.
* **C26** HopLimit is honoured: Same system.
* **C27** Looping Interests are not forwarded: Same system.
* **C28** Each Interest is answered by at most one Data per face: Same system with counters; invariant sent + pending <= received.
* **C29** Data reaches exactly the waiting downstreams: Same system; theorem on the Data pipeline.
* **C30** Unsolicited Data is never forwarded: Same system.
* **C31** Nacks are accepted and sent only where the protocol allows: Same system.
* **C32** Every pending Interest is eventually finalized: Same system; invariant on timers.
* **C33** Nonces of finished Interests are remembered: Same system.
* **C34** A consumer-chosen next hop is obeyed: Same system.
* **C35** Face identifiers are unique and never reused: FaceTable as map + counter; invariants with ghost history.
* **C36** Best-route picks the cheapest eligible next hop and never fails an assertion: Best-route decision function as written; theorem against an argmin specification.
* **C37** Multicast sends to every eligible unsuppressed next hop: Multicast decision function.
* **C38** Nack aggregation returns the least severe reason only when nothing else is pending: processNack as written; theorem.
* **C39** Retransmission suppression window: Suppression state machine; timing theorem.
* **C40** Strategy instance names resolve to the right version: Registry as a sorted list; lower_bound; theorem against a specification by versions.
* **C41** A re-sent Interest is waiting again although its previous transmission was Nacked: Out-record model; negation witness + partial.
* **C42** ASF ranks next hops by working state, delay, cost: Ranking comparison as written; argmin theorem.
* **C43** Fragmentation and reassembly are inverse: Fragmenter, sequence assignment and reassembler as written. Receiver: invariant over the partial-packet map for an arbitrary event list in which fragments of one message come from one endpoint (`Honest`). Sender: bookkeeping invariant (`Book`) that every link packet ever sent is a numbered fragment of a split of a packet given to `send`. Composition: a receiver fed only with frames of that sender reassembles only packets the sender was given.
* **C44** Fragments fit the MTU: TLV sizes as functions on Nat; arithmetic proof. `Lp/Octets` gives the octets of an LpPacket after the specification and proves that the sizes are theirs, and that elements are read back.
* **C45** With fragmentation on, a packet is never dropped for exceeding the MTU: Exact octet counts of link packets (Lp/Sizes), the space the fragmenter leaves, and an account of every packet sent (Lp/Flow). The property is false: piggybacked Acks fill the MTU before the congestion mark is added (C45_mark), and lp-reliability.cpp:194-195 computes the reserved space from the packet size instead of its TLV-LENGTH (C45_length). C45_partial shows that these are the only two ways.
* **C46** Reassembly state is bounded and cleaned up: Invariant over reassembler events.
* **C47** Link reliability bounds retransmissions and accounts for every packet once: LpReliability as a transition system with the effect list as history; `Book` invariant relates stored unacknowledged fragments, network packets and the effects emitted so far. Options may change during the run; the bound is over the options in force.
* **C48** Link reliability window never dangles: Same transition system; undefined iterator use, missing map entries and failed assertions are the explicit result `.error`. Theorem: no error is reachable if every MTU in force is at least 64. Findings L1 and L3 (smaller MTUs) are proved as witnesses.
* **C49** Duplicate link frames are delivered once: Invariant on the noted Sequences: an entry is removed only when more than one RTO old; a new entry has the time of reception (if the clock is beyond one RTO, because a stale queue entry makes `operator[]` insert the epoch). Sequences never received have no entry.
* **C50** Every received frame is acknowledged exactly once: Invariant: Acks sent ++ Acks queued = TxSequences received with a fragment while reliability was enabled. The idle timer runs whenever the queue is not empty, unless reliability was switched off in between (C50_switched_off), and empties the queue when it fires.
* **C51** Link-layer fields are accepted only where permitted: A separate relation `Deliverable` says what may be delivered for given fields and options; every step's deliveries are equivalent to it. For sending, every link packet handed to the transport is traced to the send event and the options in force then (Lp/Flow).
* **C52** Stream transports frame packets independently of chunking: The transports with the event loop; `parseLoop` against the unique factorisation of an octet string into TLV elements; traces of octets read, delivered, accepted and written, with invariants kept by every handler (induction principle `Keeps`).
* **C53** Transport lifecycle: State machine with all handlers in the queue of the event loop; the trace of state changes and effects is a `Path` of permitted ones.
* **C54** Congestion marks only during sustained congestion: Ghost list of all checks (time, options) with the queue length observed at each. Every mark belongs to a different check at which the queue has been above the threshold for at least the marking interval; every such stretch is marked; C54_packet says which packet carries the mark.
* **C55** FIB follows the RIB: FIB follows the RIB: the tree of entries, `computeUpdates` and the FIB commands as written; specification `Spec.view` computes the next hops from the routes alone. Invariant: FIB = `view`, and the inherited-route records agree with it. Proved for benign histories (`BenignRun`); ten witnesses show what goes wrong otherwise.
* **C56** RIB tree structure: RIB tree structure: invariant `RInv` over all histories; the exact condition of the only crash (`Crashes`).
* **C57** A RIB entry captures iff it has a capture route: A RIB entry captures iff it has a capture route: the counter equals the number of capture routes when no registration changes the flag; witnesses otherwise.
* **C58** Each RIB update batch completes exactly once, keeping its operation: Each RIB update is reported exactly once: `Verif.Rib.Async` with the queue and the commands in flight, arbitrary answers. Invariant for runs in which no batch is refused while it has other commands in flight (`CleanRun`); termination by a measure; witnesses otherwise.
* **C59** A destroyed face loses all its routes: A destroyed face loses all its routes: induction on the queue of removals.
* **C60** Gateway advertisement uses the shortest matching identity: Both policies as written (`Verif.Readv`); induction on the identities.
* **C61** Readvertised prefixes match the routes: The machine of readvertise.cpp with iterators as numbers never reused, commands in flight answered in any order, timers firing at any time (`Verif.Readv`). Invariant over clean histories (`Clean` in ReadvSpec.lean says which overlaps are excluded); what the destination has is computed from commands and answers (`status`). Negations for the overlaps.
* **C62** Face update is all-or-nothing: `updateFace` and `destroyFace` as written (`Verif.FaceCmd`); case analysis, and induction on commands for local scope. Partial: on a face without the generic link service the options are ignored and 200 is answered.
* **C63** Commands are authorized per module: The authenticator as written (`Verif.Auth`): parsing of the configuration section, dry run, reload, trust anchors as certificate keys; signature verification abstract. Specification: the grants in the last accepted configuration.
* **C64** Subnet rules match exactly the addresses of the subnet: Octet-wise masks and comparison of byte lists (`Verif.Net`), against agreement of the first bits; lists of rules. Partial for scope ids.
* **C65** FIB commands validate depth and face: The manager functions over the tables of `Verif.Tables` (`Verif.TblCmd`), with faces added and removed and arbitrary forwarding in between; invariant: every nexthop's face exists.
* **C66** CS erase command reports progress truthfully: Manager function over the CS model.
* **C67** Privilege drop and raise reach the configured identity: Real and effective ids with arbitrary failures of each call (`Verif.Priv`).
* **C68** Content Store switches: case analysis of the Cs model.
* **C69** FIB size counts entries: partial theorem without `Fib::erase` of a name that has a node but no FIB entry; negation witness.
* **C70** The name tree keeps no useless node: partial theorem without removing a last nexthop; negation witness.
* **C71** Table operations used within their contracts never fail an assertion: every assertion is a `none` of the model; progress theorem.
* **C72** A cached Data answers an Interest without forwarding it: Forwarder transition system.
* **C73** The forwarding pipelines never fail an assertion: Same system; progress theorem for all histories.
* **C74** Forwarder counters are truthful: Same system; invariant. The counters of received packets (`Fw/CountProps`) are compared with the number of events of the history that have a property of `Fw/CountSpec` when they occur; induction over the history.
* **C75** A forwarded Interest is the received one, one hop on: theorem about what an Interest event passes to the strategy.
* **C76** The supplied strategies meet what the forwarder expects of strategies: case analysis of each strategy's actions, giving the hypotheses of C25, C28, C29, C33 and C73; witnesses where self-learning differs.
* **C77** ASF counts timeouts correctly: state machine of one face's measurements; induction over histories against a specification on the history.
* **C78** Routes for an Interest come from its name or from the first usable delegation: `lookupFib` over the FIB model, against longest prefix match.

* **C79** Permanent TCP faces reconnect with exponential backoff: relation `Backoff` on the trace of effects; invariant over all runs.
* **C80** No event on a stream transport ends the process: faults are outcomes of the model; the two that are reachable are shown with executions, all others are excluded by an invariant.

* **C83** Strategy instances are created with exactly the parameters in their name: `create` and `parseParameters` against a relation between components and parameter lists; induction on the components.
* **C84** The RIB holds the routes registered: the effect of each update on the routes against `Spec.after`, from the invariant of C56.
* **C85** Face query returns exactly the matching faces: `queryFaces` as written.
* **C86** Strategy choice commands: as C65, from C21.
* **C87** Readvertise destination available iff reachable: events of the RIB; partial when entries do not overlap, negation otherwise.
* **C88** Routes expire in time: the RIB manager with the queue of updates, scheduled events and faces (`Verif.RibMgr`); invariant: a route with an expiry has a scheduled event or a queued removal. The other direction is an invariant of histories in which no registration of the route is queued as its event runs (`Clean`), and a counterexample otherwise.
* **C89** Prefix announcements: invariant over the history of accepted announcements; count of answers; the search for the nearest entry and the best announcement by induction.
* **C90** RIB commands: effects computed on all reachable states; the exception of `FibUpdater` is an explicit outcome; negation by a long name.
* **C91** A fragment is declared lost exactly when enough later fragments were acknowledged: the loop of `findLostLpPackets` goes through the fragments in the order of transmission, by the circular order of TxSequences (`Lp/Ops`); induction over the lost fragments handled for one Ack.
* **C81** UDP faces: a state machine of one face with its queue of handlers (`Dg/Model`); the phase invariant (`Dg/Inv`) says which handlers can be in the queue in each state, from which safety follows; every step is a list of elementary changes (`Dg/Acts`), and invariants about the effects (`Dg/Trace`) hold for each of them. The upper bound on idle time assumes that the scheduler runs functions in time (`InTime`).
* **C82** UDP channels: the channel with all its faces (`Dg/Chan`); the map of the channel contains exactly the faces that are not CLOSED. Listening for good is violated by the code, so that it is proved with a hypothesis (`C82_listening_partial`), and its negation for all later histories (`C82_deaf`).
* **C92** TCP connection requests: a state machine of the channel with its faces (`Ch/Tcp`; each face is a transport of `Tp`) and with connection attempts, whose handlers may be queued while the timeout runs; an invariant gives the phase of each request (`Ch/TcpReq`): waiting, answered with a handler outstanding, over, or answered twice. The code violates "once", so that it is proved with a hypothesis about promptness.
* **C93** TCP listening: the number of times the remote endpoint of a connection can be determined before the peer resets it is part of the event. Listening for good and the absence of exceptions are violated by the code; both are proved with hypotheses, and refuted without.
* **C94** Unix channel: several processes, whose `listen` consists of steps of one system call each, and one path (`Ch/Unix`); an invariant under the hypotheses that `listen` is not interleaved and nobody else touches the path, and witnesses without them.
* **C95** Dry run: the sections general, forwarder, tables, authorizations as functions from a property tree and a state to a state and an outcome (`Cf/Model`); by induction over the file. `general` does change the identity to be assumed later, hence partial.
* **C96** Effect of a file: `TablesDone` (`Cf/Spec`) says what a section `tables` asks for in terms of the options in the file and the observable tables (the strategy of a prefix, the capacity and contents of the Content Store); the proof uses the theorems about the Content Store (C01) and about strategy choices (C21) for any history.
* **C97** Mistakes: a section `tables` is accepted by the dry run iff it is well formed, and applied iff it is applicable in addition; the difference makes the full statement false (`C97_half_way`).
* **C98** Multicast faces: `Mc/Model` follows udp-factory.cpp; `Wanted` (`Mc/Spec`) says which faces configuration and interfaces call for. The map from local endpoints to faces holds exactly the faces that are not CLOSED (invariant); the loops over interfaces and addresses are composed of one step `Res` each. Completeness needs that nothing stands in the way.
* **C99** `faces/create`: `Fc/Model` puts together the manager, the factories, the channels and the face table; `Suits`, `Serves` and `AsRequested` (`Fc/Spec`) say which commands can be carried out, by which channel, and what the face must be like. One lemma says which of six things a command does (`Does`); the invariant relates faces, the maps of the channels and FaceIds. Partial: the packet filter of an Ethernet channel and the configured meaning of "local" can go wrong.
* **C100** the arguments of nfdc: `Nfdc/Args` models the loop over tokens; the specification (`Nfdc/ArgsSpec`) is a grammar (`Line`) and the meaning of texts (`Means`). Soundness and completeness by induction on the tokens.
* **C101** batch files: `Nfdc/Batch` models the tokenizer, the joining of lines and `main`; the specification gives the words of a line (`Splits`), logical lines (`Logical`) and what runs (`Runs`). Partial: whether a line continues is decided by counting all its backslashes.
* **C102** the commands of nfdc: `Nfdc/Ops` is a program over an arbitrary NFD, given as a function from the history of calls to answers; theorems speak about the history and the exit code only.
* **C103** Ethernet channels and multicast faces: `Eth/Model` is a state machine over configurations, interface events and closing faces; the specification (`Eth/Spec`) says which interfaces call for a channel or a face. Invariant: `m_mcastFaces` has exactly the faces that are not CLOSED. Partial: closing faces, and listening that has failed once.
* **C104** The section `face_system`: `Fs/Model` reads the options with the code's own loops and applies them; `Fs/Spec` says what an option says (its last occurrence or the default), which sections are well formed, and what channels, settings and schemes there are afterwards. Reading is related to the specification option by option; multicast and Ethernet are steps of the models of C98 and C103. Partial: a check changes congestion marking, and rules under `netdev_bound` cannot be applied.
* **C105, C106** Networks: `Nw/Model` joins any number of the forwarders of `Fw` by links; an event of the network is an event of one node, and a packet can arrive if the node at the other end has ever sent it, so that loss, duplication, reordering and delay are covered. Invariant of every node (`Nw/Node`, `Nw/Pipes`): what its PIT, Content Store, log of calls and log of packets hold traces back to applications (`Traces`, `Produced`) and to what the neighbours have sent (`Asked`, monotone because the logs only grow). Strategies are those that only pass on what they were shown (`Conveyor`); `C106_supplied` shows that the supplied ones do.
* **C107** Liveness in networks: `Nw/TripSpec` says what it takes at each node of a path (`Ready`), and what a course of the network is; `Nw/Trip` follows one Interest through one node (`out_step`: it leaves on the next face and the in-record is left behind with its expiry) and one Data back (`back_step`: the in-record is still there and unexpired), and `trip` is the induction over the path. The routes of best-route and multicast meet `ForwardsOn` (`C107_best_route`, `C107_multicast`).
* **C108** ndn-autoconfig as a transition system (`Tool/Autoconf`): the first stage with its four waits, the attempts to connect, the timer of the daemon. What the other stages come up with, which run synchronously, is part of the event that makes the first one fail; the DNS answers, HTTP and the key chain are not modelled. `Tool/AutoconfLemmas` has the invariant (runs started = completed + under way, what each attempt has got so far, and exit code), `Tool/AutoconfStages` that of the order of the stages, and the termination proof uses the number of answers left as potential.
* **C109** nfd-autoreg (`Tool/Autoreg`) as a function from the dataset and notifications to requests; the properties compare the requests with the set `Wanted`, described without the model's functions. Networks are those of the model of core/network.cpp (`Net`).
* **C110** The WebSocket channel with its connections and the transport of each (`Ws/Model`). websocketpp is an environment: a connection is live, closing or gone, messages and pongs come at any time before it is gone, `send` and `ping` fail if it is not live. Timers run on time: time does not pass beyond one that is due. Each connection has a log of what happens on it, which the properties are about; `Ws/Inv` has the invariant of a connection whose face exists, with the two timers, and of one whose face is closed.
* **C111** One PIT entry and its FIB entry with explicit lifetimes (`Re/Model`): a version for the vector of next hops, whose change invalidates iterators, and serial numbers for out-records, by which pointers name them; use of either after its end is `none`. A send on a failing face removes the face from all tables before it returns. Loops are modelled with `it` and `end`, as the range-based `for` has them. That faces fail so is proved of the WebSocket model of C110, and that they do not of the stream and datagram models.
* **C112** The loop of nfdc (`Nfdc/CsErase`) over the command handler `mgmtErase` and the Content Store of C01–C08, with arbitrary operations on the store before each command and any fate of the command. Induction on the number of commands with C66 for each; the number that remains to ask for decreases by 256.
* **C113** `Nfdc/Report` prints the sections as the modules do. `Nfdc/ReportSpec` is a reader of XML documents (elements, attributes, character references), written without reference to the model. Each piece of output is shown to be a fragment that the reader turns into a list of nodes in any context (`Frag`), by induction on the lists; the paths a user asks for are then evaluated in the tree. Assumed: no control characters in the texts from NFD; timestamps and enumerations are plain text. The text (not XML) format is not modelled.
* **C114** `Nfdc/Strategy` runs over the strategy choice commands and dataset of C86. The loop of `show` yields the longest element that is a prefix (induction on the dataset, in any order); with C86 and C21 that is the strategy in force.
* **C115** `Nfdc/CsConfig`: the parameters as bits of Flags and Mask, the handler, the store of C01. `evictEntries` of either policy removes packets only while there are more than the capacity (C01's invariant).
* **C116** `Tables/Accessor` puts the accessor on top of the tables of C15–C24. The filter compares owners found by longest prefix match; with C21 that is the strategy in charge (`InCharge`, in `AccessorSpec`), and with C22 the stored information is of its type.
* **C117** `getOrCreateNamespaceInfo` and `getNamespaceInfo` over the accessor. The loop over prefix lengths stops at the first length not below that of the strategy's prefix (induction); that the entry is still there later is C23.
* **C118** `Tables/Timers` gives each strategy object an identity and each pending event its owner and the measurements entry that holds it, on top of the tables. Invariant: objects are those of the strategy choice table; a held event's owner is in charge of its entry, since a change of type clears the information (C22) and with it the event.
* **C119** `Et/*`: one transport with its event loop (queue of handlers, timer) and libpcap as environment; frames and capture filters as octets. A phase invariant (live, leaving, closed, deallocated) says which handlers may be queued; every step is one of a few transitions of what can be observed (`Trans`), from which delivery, path and idle properties follow by induction. The loopback of own frames and the filters themselves are libpcap's.
* **C120** `Tables/PitTimers*`: the tables and strategy objects of C118 with the timeouts of the access strategy instead of those of ASF. An event exists as long as the information on the PIT entry that holds it; that information on entries with plain names is of the strategy in force (C22) gives the partial theorem without regard to nested prefixes.
* **C121** `Tool/Srv*`: the octets of the answer and its reading, with the C library's name functions modelled after glibc (trusted to be so); a specification of domain names with pointers (RFC 1035) and of SRV answers; induction over the written name shows that skipping and expanding agree with it, that the guard against loops does not reject well-formed names, and that the loops end.
* **C122** `Strat/Sl*`: the forwarder of `Fw` under the self-learning strategy, with the marks remembered in PIT records, the strategy object's identity and the queues of functions posted to the RIB thread and back; logs of the Interests sent and Data received. An invariant relates what out-records remember to the last Interest sent to the face; the rest by the pipelines' lemmas.
* **C123** `Run/*`: the two threads of `NfdRunner::run` as a transition system, one transition per instruction that the other thread can observe; the schedule and what handlers do are arbitrary. Invariant for safety and the exit code; a measure, and the thread whose turn lowers it, for the end under every schedule that lets both threads run.
* **C124** `Rib/Svc*`: `makeLocalNfdTransport`, `checkConfig`, `applyConfig` and the authorization of `RibManager` over an arbitrary property tree; induction over the options, and for the connection the statement on `face_system` of C104. Validators are any type with a loading function; sending the registration commands is not modelled.
* **C125** `Fe`: `FaceTable`, the handlers of `FaceManager` and `Transport::setState` as a state machine over numbered face objects; an invariant over all histories ties the notifications sent so far to the table and to the connected handlers, and a reader of the notifications is an independent relation. Other handlers of the signals and the delivery of notifications are not modelled.
* **C126** `Pr`: `chooseFace` with the arithmetic of IEEE 754 `double` as integers in units of 2^-1074; a bound on the rounding error by induction over the loop, and exact evaluation for six faces. The generator is not modelled; C42 takes the choice as any element of the ranking.
* **C127** `It`: both ends of an internal face with their pointers to each other and the queue of posted functions; an invariant ties what has been delivered and what waits to what was sent according to the calls alone.
* **C128** `Tool/Fch`: the URL (regular expressions as functions on character lists), the request and the reading of the answer from the byte stream; both directions between the outcome and the shape of the answer, by induction over the bytes. Nothing is sent unless the URL begins with http:// (`C128_only_http`), and a text without scheme is refused as invalid (`C128_malformed`).
* **C129** `Ap`: the flags of a namespace, the timers that set them, and the lifetimes of the measurements entries; events in any order the scheduler allows. Invariant: timers plus flag are exactly one for each entry with a first probe, and the entry outlives its timer.
* **C130** `Log`: the handler of the section as a function on the map from modules to levels, and the two readings of the file; induction over the lines.
* **C131** `Nfdc/TextList*`: the text as a function of the dataset; injectivity by cutting at ends of lines, separators and blanks, and by the kind of the optional words.
* **C132** `Tables/Access`: the two functions that choose the measurements entry, on top of the tables and the accessor of C116; survival of the information by induction over table operations. What the information says is a fold over Data, removed faces and cleared entries; `Tables/AccessLearn` joins both for one instance of the strategy.
* **C133** `Strat/AccessChoice`: the decision of the access strategy (`accessInterest`, `accessRto` of `Strat/Model`) against the set of candidates; case analysis. The packets that leave for an Interest and at a timeout follow from what the forwarder does with each ordered action.
* **C134** `Lp/Trace`: the receiving half of `Lp/Model` against a list of the ways in which a fragment can be unusable; case analysis over reassembly and decoding.
* **C135** `Lp/Sent`: the sending half of `Lp/Model`; the frames follow those of the fragmenter one by one, up to Acks, TxSequence and congestion mark, by induction.
* **C136** `Lp/Link`: two link services, composed from C135 (what is sent), C43 (reassembly), C49 (duplicates) and C51 (fields).

## What is modelled

| Area | Lean | Code |
|---|---|---|
| Names | `Verif/Name`, `Verif/Packet.lean` | ndn-cxx `Name` order, `getSuccessor`, `Interest::matchesData` as used by NFD |
| Content Store | `Verif/Cs` | daemon/table/cs.cpp, cs-entry.cpp, cs-policy*.cpp, the erase command of daemon/mgmt/cs-manager.cpp |
| Dead Nonce List | `Verif/Dnl` | daemon/table/dead-nonce-list.cpp |
| Name tree | `Verif/Nt` | daemon/table/name-tree*.cpp |
| FIB, PIT, strategy choice, measurements, cleanup | `Verif/Tables` | daemon/table/{fib,pit,strategy-choice,measurements,cleanup}*.cpp |
| Face table | `Verif/Face/Table.lean` | daemon/face/face.cpp ids, daemon/fw/face-table.cpp |
| Strategies | `Verif/Strat` | daemon/fw/{algorithm,retx-suppression-*,process-nack-traits,best-route-,multicast-,random-,access-,self-learning-,asf-strategy}.cpp, asf-measurements.cpp (timeouts), asf-probing-module.cpp (choice of the face; the schedule and the random number are inputs), instance names and `lookupFib` of strategy.cpp |
| Link service | `Verif/Lp` | daemon/face/{generic-link-service,lp-fragmenter,lp-reassembler,lp-reliability}.cpp |
| Stream transports | `Verif/Tp` | daemon/face/{stream-transport.hpp,unix-stream-transport.cpp,tcp-transport.cpp,transport.cpp}, deallocation by daemon/fw/face-table.cpp |
| RIB and FIB updater | `Verif/Rib` | daemon/rib/{rib,rib-entry,fib-updater,route,rib-update}.cpp; of the forwarder the commands of daemon/mgmt/fib-manager.cpp and the removal of next hops with a face. Not: expiration timers and readvertising |
| Management | `Verif/Mgmt` | daemon/mgmt/{command-authenticator,fib-manager,strategy-choice-manager}.cpp, updateFace, destroyFace, queryFaces of face-manager.cpp, core/network.cpp, daemon/face/network-predicate.cpp, daemon/common/privilege-helper.cpp |
| Readvertising | `Verif/Rib/Readv*` | daemon/rib/readvertise/{readvertise,host-to-gateway-readvertise-policy,client-to-nlsr-readvertise-policy,nfd-rib-readvertise-destination,readvertise-destination}.cpp; the random ±5 ms of delays and the configuration are left out |
| RIB manager | `Verif/Mgmt/RibMgr*` | daemon/mgmt/rib-manager.cpp, daemon/rib/route.cpp, parts of daemon/rib/{rib,rib-entry}.cpp; the RIB as a list of routes, without inheritance (which is in `Verif/Rib`); authorization is in `Verif/Mgmt/Auth`; validation of announcements is an arbitrary verdict; overflow of expiration periods, and the schedule of fetching the list of faces are left out |
| UDP faces and channels | `Verif/Dg` | daemon/face/{datagram-transport.hpp,unicast-udp-transport.cpp,udp-channel.cpp,channel.cpp}, parts of daemon/face/transport.cpp; socket options, the congestion and MTU options of new faces and multicast are left out; endpoints are numbers |
| TCP and Unix channels | `Verif/Ch` | daemon/face/{tcp-channel.cpp,unix-stream-channel.cpp,channel.cpp}, the constructor of TcpTransport as far as it may throw; options of the link service and socket options are left out; for Unix sockets: the path is a file, a socket or nothing, directories and permissions are left out |
| Configuration file | `Verif/Cf` | daemon/common/config-file.cpp, daemon/mgmt/{tables-config-section,general-config-section}.cpp, `Forwarder::processConfig`, the use of these in daemon/nfd.cpp; the text of the file, the grammars of numbers and names and the sections `log`, `rib`, `face_system` are left out (the last one is an arbitrary function here) |
| UDP multicast faces | `Verif/Mc` | daemon/face/udp-factory.cpp (multicast part); sockets, the channel a face is associated with and the parsing of the section are left out; interfaces change arbitrarily |
| The command faces/create | `Verif/Fc` | daemon/mgmt/face-manager.cpp (createFace), doCreateFace of the factories, connect and createFace of the TCP, UDP and Ethernet channels, FaceTable::add; URIs are given parsed, sockets and pcap by their outcome |
| The tool nfdc | `Verif/Nfdc` | tools/nfdc/command-definition.cpp, command-parser.cpp, main.cpp, face-module.cpp, rib-module.cpp, face-helpers.cpp; output texts, signing and timeouts are left out, answers of NFD are arbitrary |
| Ethernet channels and multicast faces | `Verif/Eth` | daemon/face/ethernet-factory.cpp, ethernet-channel.cpp (listen); unicast faces, packets and libpcap are left out, whether a device can be opened is arbitrary |
| The section face_system | `Verif/Fs` | daemon/face/face-system.cpp, netdev-bound.cpp and `doProcessConfig`, `createChannel` of tcp-, udp-, unix-stream-, websocket- and ethernet-factory.cpp; parsing of numbers and addresses, sockets, and the predicate of whitelists on interfaces (C64) are parameters |
| Networks | `Verif/Nw` | the forwarders of `Verif/Fw` joined by links; the link protocol (C41 to C45, fragmentation, reliability) is replaced by unreliable delivery of whole packets; packets that do not come from a forwarder come from applications |
| ndn-autoconfig | `Verif/Tool/Autoconf*` | tools/ndn-autoconfig/{procedure,stage,multicast-discovery,main}.cpp; not dns-srv.cpp, ndn-fch-discovery.cpp, guess-from-*.cpp but for their results |
| nfd-autoreg | `Verif/Tool/Autoreg*` | tools/nfd-autoreg.cpp |
| WebSocket channel and transport | `Verif/Ws/*` | daemon/face/websocket-{channel,transport}.cpp; websocketpp is an environment |
| Failing faces during forwarding | `Verif/Re/*` | the loops of forwarder.cpp, strategy.cpp, {multicast,access,self-learning,asf,best-route,random}-strategy.cpp with the lifetimes of what they use |
| nfdc cs erase | `Verif/Nfdc/CsErase*` | cs-module.cpp `erase` |
| nfdc status report | `Verif/Nfdc/Report*` | status.cpp, status-report.cpp, format-helpers.cpp (xml), `formatStatusXml` of the modules |
| nfdc strategy | `Verif/Nfdc/Strategy*` | strategy-choice-module.cpp |
| nfdc cs config | `Verif/Nfdc/CsConfig*` | cs-module.cpp `config`, cs-manager.cpp `changeConfig` |
| Access to measurements, ASF namespace information | `Verif/Tables/Accessor*` | measurements-accessor.{hpp,cpp}, asf-measurements.cpp:97-135 |
| Strategy objects and ASF timers | `Verif/Tables/Timers*` | asf-strategy.cpp:198-205, asf-probing-module.cpp:45-61, strategy-choice.cpp (objects) |
| Ethernet faces | `Verif/Et/*` | ethernet-transport.cpp, unicast-ethernet-transport.cpp, multicast-ethernet-transport.cpp, ethernet-protocol.cpp, transport.cpp |
| DNS SRV lookup | `Verif/Tool/Srv*` | tools/ndn-autoconfig/dns-srv.cpp |
| Self-learning with its state and RIB exchange | `Verif/Strat/Sl*` | daemon/fw/self-learning-strategy.{hpp,cpp} |
| Threads of the daemon: start and end | `Verif/Run/*` | daemon/main.cpp (NfdRunner), daemon/common/global.cpp |
| RIB service: configuration and authorization | `Verif/Rib/Svc*` | daemon/rib/service.cpp, daemon/mgmt/rib-manager.cpp:78-117, 183-206, 338-355 |
| Face notifications and list | `Verif/Fe` | daemon/fw/face-table.cpp, daemon/mgmt/face-manager.cpp:70-79, 352-370, 406-415, 496-525, daemon/face/transport.cpp:174-212 |
| ASF: random choice of the probed face | `Verif/Pr` | daemon/fw/asf-probing-module.cpp:104-141 |
| Internal face | `Verif/It` | daemon/face/internal-transport.cpp |
| NDN-FCH stage | `Verif/Tool/Fch*` | tools/ndn-autoconfig/ndn-fch-discovery.cpp |
| ASF probing schedule | `Verif/Ap/*` | daemon/fw/asf-probing-module.cpp, asf-measurements.cpp, asf-strategy.cpp (sendProbe), daemon/table/measurements.cpp |
| Log section | `Verif/Log/*` | daemon/mgmt/log-config-section.cpp, daemon/nfd.cpp (configureLogging), daemon/common/config-file.cpp (process) |
| Text lists of nfdc | `Verif/Nfdc/TextList*` | tools/nfdc/face-module.cpp, fib-module.cpp, rib-module.cpp, strategy-choice-module.cpp, channel-module.cpp (formatStatusText, formatItemText), format-helpers.cpp (Separator, ItemAttributes) |
| Measurements of the access strategy | `Verif/Tables/Access*` | daemon/fw/access-strategy.cpp (updateMeasurements, findPrefixMeasurements, addPrefixMeasurements) |
| Forwarding pipelines | `Verif/Fw` | daemon/fw/forwarder.cpp, strategy actions of strategy.cpp, helpers of algorithm.cpp, unsolicited-data-policy.cpp |

In `Verif/Fw` the PIT is a list of entries, which C18 and C19 (proved over the name tree) justify; strategies are arbitrary
functions from the state and the trigger to actions, one per event, so every strategy is covered; the scheduler is an explicit
list of pending events that fire at any time not before they are due.

In `Verif/Tp` the Boost.Asio event loop is part of the model: a queue of handlers, operations that complete alone or together, cancellation
that does not reach handlers already queued.

Not modelled: packet encoding beyond sizes, logging, PIT tokens, congestion marks inside forwarding, threads (NFD's forwarding
is single-threaded), memory allocation failure.

## Where the code does not have the property

Each item is proved with a concrete witness.

* C03: `Cs::find` can miss a usable packet if a Data name contains an implicit-digest component in the middle (`C03_miss_witness`).
* C17: `Fib::addOrUpdateNextHop` keeps an iterator from before sorting, so `afterNewNextHop` can report another nexthop.
* C22: PIT entries whose name ends with an implicit digest sit at the parent node and are not reset on a strategy change.
* C33: `isSatisfied` of a PIT entry is never reset (`C33_not_for_reused_entry`).
* C41: `insertOrUpdateOutRecord` does not clear a stored Nack, and `clearIncomingNack` is never called (`C41_not_pending_again`).
* C40: `Strategy::find` of an unversioned name that is a proper prefix of a registered base name finds a strategy: /localhost resolves to
  the last one in the registry, and its instance name then does not resolve (`C40_proper_prefix`).
* C76: self-learning does not pass on Data from a face it did not ask, although this Data ends the pending Interest
  (`C76_selfLearning_discards`); it asserts that there are routes when a NoRoute Nack arrives, which fails for a discovery Interest that was
  broadcast because there were none (`C76_selfLearning_asserts`).
* C78: `lookupFib` asserts that the Interest's hint is not in the producer's region; a reload of the configuration can change the region
  while the Interest is pending (`C78_region_changed`).
* C69: `Fib::erase(prefix)` decrements the size although the node has no FIB entry.
* C70: `Fib::removeNextHop` of the last nexthop leaves an empty node behind; a later `Pit::find` then fails its assertion.
* C25: an explicit NextHopFaceId lets an Interest under /localhost leave through a non-local face; a comment in the code says so,
  so it is part of the statement (`C25_nexthop_exception`).
* C80: a read that has succeeded while the transport is closed or fails has its handler invoked afterwards: `startReceive` then fails its
  assertion (`C80_assertion`; without assertions the transport reads on and delivers packets), and if the buffer is full, `setState(FAILED)`
  in CLOSING throws an exception that nothing catches (`C80_exception`).
* C55: the FIB can disagree with the routes (`C55_violated_*`): when a registration changes the capture flag of a route; when the more
  expensive of two routes to the same face and name is removed (its next hop goes although the cheaper route stays); when a route becomes
  more expensive than another one to the same face (names below keep the old cost); when a route without child-inherit is added to a face
  that is inherited; when the first of several inheritable routes at a name is not the cheapest; when the first or only capture route comes
  or goes together with routes of the same face; when child-inherit is turned off; when routes of a face that exists are removed by
  `beginRemoveFace`.
* C56: a registration that raises the cost of the cheapest route above another one to the same face dereferences a null pointer if no route
  to this face is child-inherit (fib-updater.cpp:468; `C56_crash`).
* C57: changing the capture flag of a route does not change the counter, which can even go below zero (`C57_violated_underflow`).
* C58: if two commands of a batch are refused for the face of the batch, the failure is reported twice, or first failure and then success
  with the refused route in the RIB, and commands of different batches overlap (`C58_violated_twice`, `C58_violated_both`); a removal that
  times out is repeated as an addition (`C58_violated_retry`).
* C62: on a face whose link service is not the generic one, flags and intervals are ignored although the answer is 200
  (`C62_violated_ignored`).
* C64: an IPv6 address with a scope id is greater than the same address without, so fe80::1%2 is not in fe80::1/128 and the last address of
  any subnet is outside it when it has a scope id (`C64_violated_scope`).
* C61: when what is wanted of a prefix changes while a command about it is unanswered or scheduled, the record is erased too early or an
  assertion fails: `C61_late_answer_violation` (advertisement answered after the withdrawal), `C61_readded_violation` and
  `C61_readded_then_removed_violation` (route added during a withdrawal), `C61_refresh_violation` (refresh due during a withdrawal:
  `retryEvt` is not cancelled), `C61_retry_violation` (route added before a withdrawal is retried), `C61_unavailable_violation`,
  `C61_disabled_violation` (the object is destroyed by `Service::applyConfig` while its callbacks are held by the controller; the
  daemon itself applies the `rib` section of its configuration only once, so this last one needs another user of the class). Not
  modelled, but visible in the code: a changed cost of a route is not advertised again.
* C87: two entries cover the command prefix; erasing one makes the destination unavailable (`C87_violation`).
* C88: a registration is waiting in the queue as the expiration event of the route it replaces runs; the removal is queued behind it and
  removes the renewed route (`C88_violation`). `Rib::insert` cancels the old event only when the registration is completed.
* C89: `slRenew` looks at the entry of the name and the nearest shorter entry only; a learned route of a still shorter name is not found
  (`C89_renew_hidden`).
* C90: `slAnnounce` does not check the length of the announced name, as `registerEntry` and `announceEntry` do. The forwarder refuses the next
  hop with 414, `FibUpdater::onUpdateError` throws, and the daemon ends (`C90_violation`). Also `C90_faces`: the list of faces used
  to remove routes of dead faces may be older than a new face, whose route is removed; and a registration that the forwarder carried out
  just before its face was destroyed leaves a route of a dead face until the next such removal.
* C81: a datagram longer than the receive buffer (8800 octets) is cut off by the socket, and `receiveDatagram` does not notice: if the first 8800
  octets are a TLV element, they are delivered although the datagram is not one element (`C81_truncation`).
* C82: `UdpChannel::handleNewPeer` returns without waiting for the next datagram when the receive fails or when no socket can be created for the
  new peer (for example when the process has no more file descriptors). The channel then never accepts a new peer again, although it still
  counts as listening (`C82_deaf`, `C82_deaf_witness`). A request for an endpoint whose face is CLOSING or FAILED is answered with this face,
  which is gone shortly after (`C82_dying`).
* C92: when a connection is established (or fails) just before the timeout of the request runs, the completion handler is already queued and cannot
  be cancelled: the request is answered with the timeout and once more with another failure, because `handleConnectTimeout` has closed the
  socket in between (`C92_twice`).
* C93: `TcpChannel::accept` does not accept again after an error, for example when the process has no more file descriptors; the channel then never
  accepts a connection again (`C93_deaf`). `UnixStreamChannel::accept` does the same (`C94_deaf`). `TcpTransport`'s constructor calls
  `socket.remote_endpoint()`, which throws when the peer has reset the connection after `createFace` has checked it; the
  exception is not caught and ends NFD (`C93_crash`). When messages of level TRACE are logged, every reset before the handler runs has this effect.
* C94: two instances that start at once and find a stale socket may both listen, where one cannot be reached; each `~UnixStreamChannel` removes whatever is at
  the path, including the socket of another instance or a file that is not a socket (`C94_race`, `C94_external`).
* C95: a dry run of section `general` sets the identity that privileges are dropped to (`C95_identity`). This has no consequence today: the only
  dry run is followed by the real one or by the end of the process.
* C97: the dry run does not see that a prefix under `strategy_choice` has more than 32 components, that a strategy rejects its parameters (a known
  to-do in the source), or that a name under `network_region` is malformed: the file is then applied half-way (`C97_half_way`). A reload has no dry run at all;
  its exception leaves `io_context::run` and ends NFD. Removing the section `authorizations` and reloading revokes nothing (`C96_absent`).
* C98: if only the address of the multicast group changes, and not the port, the old face is closed and the new one is not made, because the local endpoint is
  still taken; there is no face until the configuration is read once more (`C98_group_change`). An interface that has an IPv4 address when it appears and gets an IPv6
  address later (or the other way round) gets no second face until the configuration is read again (`C98_second_family`). A face that is still CLOSING when multicast is
  turned on again counts as the face called for (`C98_dying`); this needs two configurations to be read before the event loop runs.
* C99: if the section `local` of the TCP configuration does not cover loopback addresses, a faces/create command that asks for local fields on a TCP face to a loopback
  address passes the check in tcp-factory.cpp:172 (`is_loopback`), and when the connection is there the assertion in face-manager.cpp:220 fails, as the face is not local
  (`C99_abort`). If `EthernetChannel::updateFilter` throws (ethernet-channel.cpp:209), the command is answered with 500 but the face stays in the channel, UP and not
  in the face table; the next command for this endpoint gets 200 and this face, with the options of the command that failed (`C99_filter`). 409 may describe a face
  that is CLOSING (`C99_dying`). Ethernet faces ignore the congestion marking options of the command (`C99_ether_marking`); the answer tells.
* C100: `boost::lexical_cast<uint64_t>` accepts a sign, so nfdc takes `-1` for the FaceId 18446744073709551615 (`C100_minus`; command-definition.cpp, parseValue).
* C101: nfdc decides whether a line of a batch file continues by the parity of all backslashes in it, not of those at its end: in the line `add a\ b` (an escaped
  blank) the last character is dropped and the next line is taken for its continuation; the wrong command is executed with exit code 0 (`C101_backslash`). An
  unknown escape sequence ends nfdc by an uncaught exception (`C101_abort`). `nfdc --help`, `nfdc help` and an unknown command end with exit code 1 by an exception of
  an empty function object (`C101_exit`). The manual says that a failing batch ends with exit code 2; it is the code of the command that failed.
* C103: `EthernetChannel::listen` notes that it listens before it opens the device; when this fails, the exception is caught by the factory, and no later
  configuration tries again (`C103_never_retried`). An Ethernet multicast face that is being closed when the configuration is applied counts as existing, so that
  the interface has none afterwards (`C103_closing`).
* C104: `processConfig` of the factories stores the setting for congestion marking before it looks whether this is a dry run (`C104_dry_run_marks`). A rule under
  `netdev_bound` needs a scheme ending in `+dev`, which no factory provides: such a section passes the check at start-up and then fails (`C104_no_rules`).
* C108: a network change makes the daemon run again after 5 s even if multicast discovery of the previous run is still waiting; `Stage::start` then throws, and
  ndn-autoconfig ends with exit code 1 (`C108_network_change`). A hub Data with malformed content, which anyone in the local network can send, does the same
  (`C108_malformed`; multicast-discovery.cpp:136-147), and so does the lack of a default identity (`C108_no_identity`). Not modelled but seen: res_query and res_search
  return -1 on failure, where dns-srv.cpp:129-137 and 156-166 check for 0 only, so that an uninitialised buffer is parsed.
* C109: at start-up nfd-autoreg registers the prefixes on local faces too, because the dataset is not filtered by scope (`C109_local_at_start`).
* C110: `socket.remote_endpoint()` throws if the peer has reset the connection before the open handler runs, and nothing catches the exception: NFD ends
  (`C110_crash`; websocket-transport.cpp:59-61). Unlike all other transports, WebSocket faces take packets longer than 8800 octets (`C110_oversized`); a stream
  transport that such a packet is forwarded to makes the receiver fail and close the face (`C110_poison`). Octets of a message after its first element are ignored.
* C111: sending on a WebSocket face whose connection is being closed (a peer's close frame suffices) closes the face within the call. The face is then removed from
  the FIB entry that the strategy is iterating over, and its out-record is freed, of which `onOutgoingInterest` returns a pointer. The multicast, access and
  self-learning strategies go on with invalid iterators or write to the freed record, ASF uses the FIB entry if that was its only next hop, and `onNewNextHop` uses the
  freed next hop for further entries: the theorems of C111 say exactly when. A remote peer that has a route can bring this about.
* C112: `CsManager::erase` finds out whether packets are left by a lookup, which misses while the store does not serve (`nfdc cs config serve off`). So
  `nfdc cs erase` stops after 256 packets then and reports success.
* **C117** (asf-measurements.cpp:113-127) With ASF set for some namespace only, an Interest in this namespace with a forwarding hint that leads to a FIB entry outside of it, whose prefix has at least as many components as the name, finds no measurements: the assertion fails, or in a release build a null pointer is used (`C117_crash`, exact condition in `C117_hint`). With a hint inside the namespace the results are recorded nowhere (`C117_hint_unmeasured`).
* **C117** (asf-measurements.cpp:97-107) Lookups by name take the longest measurements entry, whatever the FIB says; the entry of a removed route is kept alive by these lookups, so that ASF decides by one entry and records on another (`C117_stale`).
* **C117** (asf-probing-module.cpp:51-60) The probing event looks up the information by the prefix of the FIB entry; if the route is for a shorter prefix than the strategy choice it finds nothing, and ASF never probes in this namespace (`C117_never_probed`).
* **C118** (asf-probing-module.cpp:51) The probing event is not cancelled when the strategy object is destroyed; up to a minute after another strategy has been set it uses freed memory (`C118_probe_dangles`, `C118_probe_dangles_unset`).
* **C118** (asf-strategy.cpp:199-202, strategy-choice.cpp:227-231) A change to a strategy of the same type keeps the information and with it the timeouts, whose callbacks belong to the destroyed object (`C118_timeout_dangles`, `C118_nested_dangles`).
* **C119** (ethernet-transport.cpp:74-92, 155-171) A `handleRead` that is already queued without error when the face is closed calls `pcap_next_ex` with a null pointer (`C119_null_pcap`); the check for the state is only made on errors. In a debug build `getNDropped` does the same when the answer to a packet cannot be sent (`C119_debug_crash`).
* **C119** (ethernet-transport.cpp:155-165, 211-214) When waiting fails on a permanent face, which all multicast faces are, `handleRead` returns without waiting again: the face stays UP and receives nothing any more (`C119_deaf`).
* **C120** (strategy-choice.cpp:203-254, access-strategy.cpp:149-153) The timeouts of the access strategy capture `this` and are held by the PIT entry. As in C118 they survive when the strategy changes to another object of the same type: unsetting it for the longer of two prefixes (`C120_unset_dangles`), or setting it for a longer prefix and then another one for the shorter (`C120_nested_dangles`), destroys the object while the timeout is pending. For a strategy set at a name that ends in an implicit digest this happens even when the type changes, since the entry is not visited (`C120_digest_dangles`).
* **C121** (dns-srv.cpp:98-101) The port is read 16 octets after the start of the record, whatever the length of the owner's name there; it is right only if that takes two octets (`C121_wrong_port`). `sizeof(rechdr)` is 12, not the 10 octets of the format, which makes up for the pointer. The type of the record is not looked at (`C121_alias`).
* **C121** (dns-srv.cpp:98-99, 129-137) The port may be read behind the buffer (`C121_over_read`); and if the answer did not fit, the length returned by the resolver is larger than the buffer and so is what is read (`C121_truncated`).
* **C122** (self-learning-strategy.cpp:192-213) The functions posted to the RIB thread and back use `this`; if the strategy is replaced in between, even by a new instance of the same kind, it is gone (`C122_dangling`). If there is no announcement, or the face of the Data is gone, the Data that came is not sent to anyone, and the Interest expires (`C122_unanswered`).
* **C122** (self-learning-strategy.cpp:112-129) An out-record without information counts as one of a discovery Interest. So a route is learnt from a face that was sent only marked Interests, if the sender chose the next hop itself (`C122_learns_from_chosen`) or the strategy was changed in between (`C122_learns_after_change`).
* **C122** (forwarder.cpp:348-387) `afterReceiveData` is not called when the Data satisfies several pending Interests: the announcement is not used (`C122_two_entries`), and no announcement is looked up for downstreams.
* **C122** (self-learning-strategy.cpp:138) The assertion that there is a route fails when a face answers a discovery Interest by a NoRoute Nack (`C122_nack_asserts`).
* **C123** (main.cpp:122-154) The main thread waits until `ribIo` is not null, but the RIB thread sets it to null again when it ends. If setting up the RIB service fails (no transport in the configuration, a wrong `rib` section, ...) before the main thread has looked, it waits for ever; SIGTERM does not end it either (`C123_stuck`).
* **C123** (global.cpp:30-33, 69-74) `g_ribIoCtx` is never reset: a handler of the main thread that is running while the RIB thread fails and ends may post to the destroyed `io_context` (`C123_post_dangling`).
* **C124** (service.cpp:161-195) The rule that `localhop_security` and `auto_prefix_propagate` exclude each other is checked for each section `rib` alone: two sections get round it (`C124_both`).
* **C124** (service.cpp:71, 78-80) Of a repeated `path`, `port` or `listen` the RIB manager takes the first and the forwarder the last, so that it connects where nobody listens (`C124_repeated`).
* **C124** (service.cpp:221, 226; host-to-gateway-readvertise-policy.cpp:42) `cost`, `timeout` and `refresh_interval` that cannot be read are silently replaced by the defaults (`C124_unread`).
* **C125** (ethernet-transport.cpp:57-58, face-manager.cpp:72-75) A face on an Ethernet interface that is not running is down when it is added; what is told is its creation, and neither that nor the list says that it is down (`C125_created_down`).
* **C126** (asf-probing-module.cpp:114-140) The probabilities are summed in `double`, and the sum may be less than a random number below 1: with six faces and 1 - 2^-53 the end of `chooseFace` is reached, which is declared unreachable (`C126_unreachable`).
* **C127** (internal-transport.cpp:49-56, face-table.cpp:88-106) A packet that the client has sent is handed to the forwarder also if the face has been closed and removed from the face table in the meantime, then with the FaceId 0 (`C127_late`); the posted functions of the client's end use it after it is destroyed (`C127_client_gone`).
* **C128** (ndn-fch-discovery.cpp:174-182) If the status line of the answer ends after the protocol, `statusCode` is read without having been set (`C128_no_code`). -4294967096 counts as 200 (`C128_negative`). A URL with a query is refused as invalid (`C128_query`).
* **C129** (asf-probing-module.cpp:48-59) The timer looks for measurements at the FIB entry's name, although they are kept at a longer name if the FIB entry is outside the strategy's namespace: with a default route and ASF chosen for one prefix nothing is ever probed (`C129_never`). (asf-strategy.cpp:54-58) A measurements lifetime below the time to the first probe is accepted: the entry goes before its timer, and a second timer is started (`C129_twice`).
* **C130** (log-config-section.cpp:66-85) Only modules of NFD are put back to the default level: after a line for another module was taken out, a reload leaves its level (`C130_stays`). A second line for the default level is neither used nor checked (`C130_second`), and a second `log` section undoes the first (`C130_sections`).
* **C131** (face-module.cpp:472-474, channel-module.cpp:77) URIs are printed as they are in the text lists: with a blank or an end of line in the path of a Unix socket two different lists look the same (`C131_blanks`).
* **C132** (access-strategy.cpp:263-278) The strategy is chosen by the name of the Interest, the measurements entry by the name of the Data. If an Interest for /1 that may be satisfied by longer names brings Data /1/2/3 while another strategy is set for /1/2, the access strategy gets no entry: the assertion fails, and a release build uses a null pointer (`C132_crash`). A measurements entry without information hides what is known for a shorter prefix, as the TODO in the code says (`C132_hidden`).
* **C134** (generic-link-service.cpp:306-310, 362-370, lp-reassembler.cpp:59-67, 77-80, 93-102) Face counters do not show every loss: fragments that are unusable, and Interests with a NextHopFaceId that is not permitted, are dropped without any count; other malformed packets are counted. `C134_silent` lists all cases.
