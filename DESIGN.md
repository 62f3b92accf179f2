# Formal model of nasa/HDTN in Lean 4

## Method

Each module under `lean/Verif/` models a group of C++ functions as total, computable Lean
functions. Every definition that models code cites the file and lines it models and says what is
simplified. For a module `X`:

* `Verif/X/Model.lean` (or `Verif/X.lean`) holds the model only,
* `Verif/X/Lemmas.lean` holds helper lemmas,
* `Verif/X/Spec.lean` holds small independent specifications, where one is needed,
* `Verif/X/Props.lean` holds the property theorems, each followed by an `example` that shows a
  concrete case meeting its hypotheses.

Bytes are `UInt8`; machine words are natural numbers with explicit `% 2^64` (or 2^32) wherever
the C++ arithmetic can wrap, and explicit range hypotheses where the type bounds an input.
Undefined behaviour (out-of-bounds access, iterator misuse) is a distinct outcome, never a default
value.

Where the code violates a property, the negation is proved on a concrete witness and the part
that does hold is proved as a theorem with the suffix `_partial`.

## Trusted base

* Lean 4.33.0's kernel.
* Axioms: `propext`, `Classical.choice`, `Quot.sound` only (checked with `#print axioms`).
* The correspondence between the C++ text and the model definitions, which is by reading; each
  definition carries its citation.
* The C++ compiler, the standard containers, Boost, the operating system and hardware are assumed
  to behave as documented and are outside the model.

## What is modelled and what is not

Modelled, as cited in the definitions: 

* `common/util`: Sdnv (classic and accelerated forms), CborUint, FragmentSet, TokenRateLimiter,
  ForwardListQueue, CircularIndexBufferSingleProducerSingleConsumerConfigurable (index arithmetic), Uri,
  the big-endian parts of BinaryConversions used by the above.
* `common/bpcodec`: Cbhe, Bpv7Crc use in blocks, BPv6 and BPv7 primary and canonical blocks, BPv7 extension
  blocks, BPv6 extension blocks, BPv7 security blocks, BPv6 and BPv7 administrative records, BundleViewV6, BundleViewV7, Bpv6Fragment and its manager,
  CustodyIdAllocator, CustodyTransferManager.
* `common/ltp`: LtpFragmentSet, Ltp (parser and generators), LtpRandomNumberGenerator,
  LtpSessionRecreationPreventer, LtpSessionReceiver and LtpSessionSender (data in memory), and the two joined by
  a network; LtpTimerManager; of LtpEngine the cancel segments and pings.
* `common/tcpcl`: Tcpcl (version 3: receiver and generators), TcpclV4 (receiver and generators), TcpclV4BidirectionalLink (callbacks, Forward, shutdown; two entities on one connection, without TLS, reconnecting and failing writes).
* `common/bpsec`: InitializationVectors, BpSecPolicyManager; BpSecBundleProcessor, with
  the cryptographic functions of OpenSSL as a parameter (assumed: lengths, and that they invert each other).
* `common/udp`: UdpBundleSource, UdpBundleSink.
* `common/stcp`: StcpBundleSource with TcpAsyncSender, StcpBundleSink.
* `common/slip_over_uart`: the SLIP encoder and decoder, UartInterface (sending and receiving bundles).
* `common/cgr`: dijkstra, cmr_dijkstra, ContactMultigraph, Route (without volumes and confidence), as called by ComputeOptimalRoute of `module/router`.
* `module/storage`: MemoryManagerTreeArray, HashMap16BitFixedSize, BundleStorageCatalog, CustodyTimers, expiry
  and deletion policy; BundleStorageManagerBase with the multithreaded version's disk threads, one read session
  (the primary block decoder is a parameter; a write of a block is one step); of ZmqStorageInterface the arrival
  of custody signals.
* `module/ingress`: of ProcessPaddedData the processing of version 7 bundles, before they are routed.
* `common/util/src/TimestampUtil.cpp` (DtnTime): conversions of times of DTN and their order; a time of the clock is a number of microseconds without bounds. Not modelled: texts of times,
  special values and bounds of boost's counters.
* `common/util/include/UserDataRecycler.h` (Recycler): the bin for vectors of bytes. Not modelled: other types of user data, the memory of the list's nodes.
* `common/util/include/FreeListAllocator.h` (FreeList): `FreeListAllocator`, any number of them; the chain of nodes is a list, the operating system's allocator is the list of addresses in use.
  Not modelled: `FreeListAllocatorDynamic`, the contents of the nodes.
* `common/util/src/BinaryConversions.cpp` (HexKey): hexadecimal text, with its use for key files in `BpSecPolicyManager.cpp`; `boost::algorithm::hex`, `unhex` and `boost::trim` after their
  documentation. Not modelled: base 64.
* `common/util/src/TcpAsyncSender.cpp` (TlsSender): `TcpAsyncSenderSsl`, of which `TcpAsyncSender` is the case with one layer. Not modelled: TLS itself and the handshake, posting between threads, calls
  made by the callbacks for failed bundles.
* `common/util/src/DirectoryScanner.cpp` with its use in `BpSendFile.cpp` (DirScan): `TryAddNewFile`, `OnRecheckFileSize_TimerExpired`, `GetNextFilePath`, `GetNextFilePathTimeout`, and when
  the sender calls them. Not modelled: walking through directories, which directories are watched, the depth, extensions and lengths of names, times.
* `common/util/src/UdpBatchSender.cpp` (UdpBatch): queue, `sendmmsg_op`, answers. Not modelled: the parts for Windows, the socket and its shutdown, changing the destination.
* `common/ltp/src/LtpEncapLocalStreamEngine.cpp` (LtpEncap): the sending side, with the limit of `LtpEngine::TrySendPacketIfAvailable`. Everything runs on one thread. Not modelled: the rate
  limit, reads from disk before sending, `VerifyLtpPacketReceive` (the same text as in C164), the counters. Assumed: the handler of a write that was cut off runs before the next connection.
* `common/outduct_manager/src/OutductManager.cpp` (OutMgr): `LoadOutductsFromConfig`, `Reroute_ThreadSafe`, `Forward`, the search for outducts and the list of capabilities. Not modelled: the
  constructors and callbacks of the outducts (`Init` succeeds or not by the configuration), `AllReadyToForward`, other telemetry.
* `module/encap_repeater/src/EncapRepeater.cpp` (EncapRepeater): both directions. Not modelled: stopping, options of the program, reads that are started while their stream is not connected.
* `common/ltp/src/LtpIpcEngine.cpp` (LtpIpc): the ring in shared memory with its semaphores in one direction, and the check of received packets. Not modelled: creating and
  opening the memory, `Stop`, `Reset`, the decoder for AVX2, sizes of 2^32 and more; the copy of a packet is one step (its commit another).
* `common/outduct_manager/src/BpOverEncapLocalStreamOutduct.cpp`, `common/induct_manager/src/BpOverEncapLocalStreamInduct.cpp` and the queue of `Induct.cpp` for one remote node (EncapDuct):
  with the reading side of Encap. Not modelled: waiting for room with a time-out, the thread of the stream, bundles held by ZeroMQ messages (they go the same way), telemetry.
* `common/ltp/src/LtpBundleSource.cpp` (LtpSource): the limit, the counts, and waiting at the end, with each access to a shared variable a step of its own.
  Not modelled: the callbacks to the outduct manager, the conversion of user data, memory ordering (the set of sessions is used by two threads without a lock, which is taken to be atomic).
* `common/ltp/src/LtpUdpEngineManager.cpp` with the ring of received packets of `LtpUdpEngine.cpp` (LtpUdpManager): adding and removing engines, and the
  way of a datagram, with the portable decoder of SDNVs. Not modelled: the checks of the configuration, errors of the socket, the fast decoder.
* `common/tcpcl/src/TcpclV3BidirectionalLink.cpp` with `TcpclBundleSource.cpp` and `TcpclBundleSink.cpp`, and `common/util/src/TcpAsyncSender.cpp`
  (TcpclV3Link): two ends of a link at the level of messages, with their queues, failing writes, shutdowns and new connections. Not modelled: bytes (see
  TcpclV3), timers (what they do may happen at any time), the check of names in contact headers, the limit of the size of received bundles.
* `common/ltp/src/LtpEngine.cpp` with the calls into it of `LtpSessionSender.cpp` (LtpSessions): sessions that send, the queues of what is to be sent or
  deleted, the pipeline of system calls, cancellation, and what the user is told, with blocks in memory or on the disk. Not modelled: batches of packets,
  limits of the rate, receiving sessions kept on the disk, and the contents of packets (see the other modules for LTP).
* `common/bpcodec/apps/BpSendStream/src/BpSendStream.cpp`, `common/streaming/src/DtnRtp.cpp` (PacketHandler) and
  `common/bpcodec/apps/BpReceiveStream/src/BpReceiveStream.cpp` (Stream): the queues, the grouping of packets, and the payloads, with all interleavings of
  the threads. Not modelled: sockets, GStreamer, statistics.
* `module/udp_delay_sim/src/UdpDelaySim.cpp` (DelaySim): arrival, ring, delay timer, sending, loss of signal. Not modelled: resolving the destination,
  rates, and packets queued from outside.
* `common/util/src/MemoryInFiles.cpp` (FileMem): blocks, fragments, requests, the queues of operations of the files, their completion with or without
  errors, deferred deletion, and the timer for new files. Files are functions from positions to bytes; a byte that was never written reads as zero below
  the end. Not modelled: the names of files, the asynchronous calls of the operating system (an operation with an error does nothing), and counters.
* `common/bpcodec/src/app_patterns/BpSinkPattern.cpp` (Sink): what becomes of a bundle of either version, with custody, fragments and echo; aggregates
  sent by the timer; the thread that sends answers, with the callbacks of other threads as events; the view that receiving threads share. Not modelled:
  sending through an induct, empty bundles in the sending thread, counters, and the log.
* `common/bpcodec/src/app_patterns/BpSourcePattern.cpp` (Source): the thread that makes and sends bundles, with the callbacks of other threads as
  events; creation timestamps; bundles received; custody accounting. Not modelled: sending through an induct, rates, text logs.
* `common/util` (Encap): CCSDS encapsulation headers and the reading side of EncapAsyncDuplexLocalStream.h.
* `common/bpcodec/apps` (FileTransfer): BpSendFile.cpp and BpReceiveFile.cpp, what is sent and what is done with it; without the scanning of
  directories (see DirScan), UTF-8 conversion of paths, and files that change while they are sent.
* `module/router` (Router): router.cpp with links, the contact plan and its timer, routes and neighbours with depleted storage; without
  bundles for the router, telemetry and JSON.
* A node of `module/ingress`, `module/egress` and `module/storage` (Node): the ways of bundles, their reservations,
  acknowledgements, link changes and route changes, with all interleavings of the threads; without opportunistic links,
  the router's bundles and time-outs of custody.

Not modelled: 

* Threads, sockets, ZeroMQ messages, files and the asio loop: where it matters, what they do is an arbitrary
  sequence of events, and every function runs to its end before the next starts.
* Time stamps except where a property is about them, statistics, telemetry, logging, memory reuse.
* Whole components: reading contact plans, the cryptographic functions themselves, and the command line programs
  but for those named above.
* In the SDNV decoders the shuffle tables are described by what their rows do, not transcribed.

Simplifications of single definitions are stated in their comments.

## Plan per property

| id | property | module | how it is modelled and proved |
|---|---|---|---|
| C01 | SDNV encode/decode round trip | Sdnv | model encoder/decoder as functions on byte lists; induction over 7-bit digits |
| C02 | SDNV decoder is safe and exact on arbitrary input | Sdnv | loop invariant of the decoder loop against a positional-notation spec |
| C03 | Accelerated and portable SDNV code agree | Sdnv | model pdep/pext as digit (de)interleaving; prove equal to classic for all inputs |
| C04 | Batch SDNV decode equals one-at-a-time decode | Sdnv | array decoder as recursion; equality with iterated single decode |
| C05 | CBOR unsigned integer round trip and minimality | Cbor | case split on the five widths, big-endian lemma |
| C06 | CBOR integer arrays round trip | Cbor | induction on the list |
| C07 | Fragment set insertion is exact set union in canonical form | FragmentSet | ordered list model of std::set under the abutting order; covers = union; canonical form unique |
| C08 | Fragment set queries mean what they say | FragmentSet | set semantics from the invariant |
| C09 | Fragment removal removes exactly the given range | FragmentSet | negation witness + partial theorem for ranges not abutting an entry on the left |
| C10 | Gap computation is exact | FragmentSet | induction over entries |
| C11 | LTP reports claim exactly what was received | LtpReport | claims as ranges; uses C07/C10 |
| C12 | LTP sender bookkeeping from reports is exact | LtpReport | uses C07/C10 |
| C13 | LTP red-part delivery: exact, complete, once | LtpReceiver | step function; invariant: buffer agrees with block on covered bytes |
| C14 | LTP receiver never writes outside its reassembly buffer | LtpReceiver | UB as a distinct outcome; negation witness + partial theorem |
| C15 | LTP session and serial numbers | LtpRng | bit-field arithmetic; negation witness for the ping test |
| C16 | LTP first transmission covers the block exactly | LtpSender | first-pass generator as recursion; tiling by induction |
| C17 | LTP sender reports success only when everything is acknowledged | LtpSender | uses C12 |
| C18 | LTP segment wire format round trip | LtpWire | independent description of segments; the parser reports exactly these; generators produce them |
| C19 | LTP parser does not depend on how bytes are chunked | LtpWire | shortcuts are sequences of single steps; violated for huge claim counts and trailers in later buffers |
| C20 | LTP retransmission is bounded | LtpReceiver, LtpSender, LtpCancel | counter invariant over timer histories; violated for cancel segments with large limits |
| C21 | Closed LTP sessions are not recreated | LtpMisc | ring + set model; refinement to last-N list |
| C22 | Storage segment allocation is sound | MemoryManager | 64-ary bitmap tree of any depth, refinement to a set of free ids |
| C23 | Multi-segment allocation is all or nothing | MemoryManager | loop with rollback over the refinement |
| C24 | The custody lookup table is a map | HashMap16 | refinement to finite map |
| C25 | Bundles leave storage by priority, then deadline, then order | Catalog | nested ordered maps; selection loop spec |
| C26 | The storage catalog neither loses nor duplicates bundles | Catalog | invariant over histories |
| C27 | Expired bundles are found exactly | Catalog | exact characterisation of the scan |
| C28 | What is stored on disk is what is read back | Storage | disk threads, queues and read-ahead cache as in the code; invariant over histories; calls end by a measure; violated after `ReadFirstSegment` on two segments |
| C29 | Restart restores exactly the stored bundles | Storage | disk invariant; restore loop computes the live set; violated when every segment has been written |
| C30 | A crash in the middle of a write does not lose other bundles | Storage | negation witness with two segments; for one segment per bundle and one disk, the file is that of an earlier moment |
| C31 | Custody identifiers are unique while in use | CustodyId | invariant over histories using fragment-set semantics |
| C32 | Custody timers fire exactly when due | CustodyTimers | sorted-list invariant under non-decreasing clock |
| C33 | Single-producer single-consumer ring is safe under every interleaving | CircularIndex | transition system with atomic steps; inductive invariant |
| C34 | Endpoint identifiers round trip | Cbhe | uses C01, C05, C06 |
| C35 | BPv7 primary block round trip | Bpv7Primary | parser/serializer pair |
| C36 | CRC protects BPv7 blocks | Bpv7Crc | CRC as polynomial remainder over bits; single-byte error detection from invertibility |
| C37 | BPv7 canonical blocks round trip | Bpv7Canonical | parser/serializer pair |
| C38 | BPv6 primary block round trip | Bpv6Primary | uses C04 |
| C39 | BPv6 fragmentation tiles the payload and reassembly restores it | Bpv6Fragment | fragment loop tiles; assembly over any permutation with duplicates; fragments of fragments by induction over the depth |
| C40 | Incomplete fragments are never reassembled | Bpv6Fragment | negation witness + partial theorem for the fragment manager's guard |
| C41 | Aggregate custody signals round trip | AdminRecord6 | fold over fills; canonical sets |
| C42 | Administrative bundles from one node have distinct identities | CustodyManager | negation witness; partial for different seconds |
| C43 | TCPCLv3 stream parsing is independent of TCP segmentation | TcpclV3 | turns of the loop as sequences of single steps; violated for refused lengths |
| C44 | TCPCLv3 messages round trip | TcpclV3 | wire format as a relation; parser complete and sound for it, generators in it |
| C45 | TCPCLv4 stream parsing is independent of TCP segmentation | TcpclV4 | every turn of the loop with its shortcuts equals byte-wise turns (`round_slow`), from every state |
| C46 | TCPCLv4 messages round trip | TcpclV4 | wire format as relations (`Spec.IsMessage`); generators meet it, the parser reports what meets it, an invariant shows that it reports nothing else. False for an empty node and for extensions left from a refused segment |
| C47 | Rate limiting bound | TokenBucket | potential-function invariant |
| C48 | Bundles are not considered expired before their lifetime ends | Expiration | modular arithmetic; negation witness + partial |
| C49 | Every stored bundle has a valid priority class | Expiration | negation witness + partial |
| C50 | The send queue is a queue | ForwardListQueue | node-sequence model with a tail index, refinement to List |
| C51 | Hardware and software checksums agree | Bpv7Crc | CRC register as a number below 2^32, word-wise steps equal byte-wise steps |
| C53 | ipn URIs survive text | Uri | numerals as in a separate specification; exact set of accepted texts |
| C54 | BPv6 canonical and extension blocks survive the wire | Bpv6Canonical | uses C01, C02, C53 |
| C55 | BPv6 status reports and custody signals survive the wire | AdminRecord6 | rows of numbers, one reader lemma per optional part |
| C56 | BPv6 bundles survive loading, editing and rendering | BundleView6 | reader characterised by the layout of a bundle; induction over the blocks |
| C57 | LTP reports tell the truth | LtpReceiver | invariant over histories: claims of issued reports are covered by arrived segments |
| C58 | LTP checkpoints are answered | LtpReceiver | one checkpoint followed through timer and queue; violated when a held-back report overlaps |
| C59 | An LTP session that closes normally is finished | LtpReceiver | ledger of issued, queued, timed and acknowledged reports; violated for green parts |
| C60 | LTP sends again exactly what is missing | LtpSender | queue emptied by further send opportunities; uses C10, C12; separate ledger for delayed reports |
| C61 | LTP over a bad network delivers the red part or nothing | LtpLink | product of the two session models and a network that keeps every segment ever sent; uses C13, C17, C57 |
| C62 | A delivered LTP red part can be acknowledged | LtpLink | continuation built from C16, C17; dead ends by an invariant that no new report is made |
| C63 | Every LTP link ping ends with one report of the link's state | LtpCancel | the trace of a ping is a regular pattern; violated for large limits and lookalike sessions |
| C64 | LTP timers call back exactly once and in time | LtpTimers | reachability by small steps; counting, order and deadline invariants; violated for the id 0 |
| C65 | Storage segments are neither shared nor leaked | Storage | with the invariant of C28; violated for duplicates of custody bundles |
| C66 | Custody is accepted, refused and signalled as announced | CustodyManager | case analysis on the custody blocks; generated bundles through C41, C55, C56 |
| C67 | Aggregate custody signals lose and invent nothing | CustodyManager | conservation law over histories; violated for more ranges than the buffer holds |
| C68 | Custody bundles are released only when the next hop has them | CustodyManager | C67 followed by loading at the custodian; violated for the largest identifier |
| C69 | TCPCLv4 links deliver what is forwarded | TcpclV4Link | two entities with queues and a byte stream each way; one invariant (`Core`) per entity over the messages sent, queued and got, kept by every action; progress by a measure. Empty bundles wedge the session |
| C70 | TCPCLv4 bundles are reported as sent exactly once, after delivery | TcpclV4Link | from the same invariant for careful applications; for any peer by induction over its messages. False when the peer refuses a transfer or initialises the session again |
| C71 | TCPCLv4 links accept what fits | TcpclV4Link | bound on the expected acknowledgements by the number of outstanding bundles (`room`). False: oversized bundles are accepted, refused ones leave traces |
| C72 | TCPCLv4 receivers deliver the transfers of any peer | TcpclV4Link | induction over the messages. False for mixed transfers, missing first segments and the announced limit |
| C73 | TCPCLv4 sessions are set up as configured, and no peer can end the process | TcpclV4Link | decision table of the session initialisation; no crash between suitable entities. False for several messages of other peers |
| C74 | BPv7 administrative records survive the wire | AdminRecord7 | exact relation for what is read (soundness and completeness of the status loop with the detected time flag); written bytes given outright and shown to be the RFC encoding. False for reports with no status asserted, arrays of statuses of indefinite length, short statuses, properly tagged bundles, unsupported codes and times in comparisons |
| C75 | BPv7 security blocks survive the wire | BpSec7 | the reader as a cursor over the memory behind the block, with a distinct outcome for reads outside it; sound and complete against a relation for what is taken; written bytes given outright and shown to be the encoding of RFC 9172. False for memory safety (two general theorems), recycled block objects, several results of a target, results without targets, identifiers above 2^32, reserved flags |
| C76 | Security parameters and results are kept apart | BpSec7 | induction over the list of parameters |
| C77 | BPv7 bundles survive loading, editing and rendering | BundleView7 | loading characterised by the layout of a bundle, both ways; induction over the blocks for rendering, with a distinct outcome for stores behind the buffer. False for memory safety (two general theorems), recycled security blocks, bundles without blocks or with two payload blocks, rendering in place with a changed payload |
| C78 | BPv7 block numbers stay unique | BundleView7 | invariant over all histories of edits: numbers distinct, free bits unused. False when blocks share a number, when the payload block is deleted and at the largest number |
| C79 | The route search finds the earliest delivery | Cgr | journeys through a plan as specification; invariant of the label setting search (settled contacts are final, labels are journeys), with overflow, null pointers, endless loops and failed assertions as outcomes |
| C80 | Multigraph routing finds the earliest delivery | CgrMulti | the same specification; sortedness of the adjacency lists, correctness of the binary search, invariant of the queue. False for most plans: general theorems for smaller node numbers and sources without contacts, witnesses for the rest; proved for plans of the intended kind |
| C81 | The figures of a route are right | Cgr | induction over the hops appended. False for the delivery time, which ignores the present time |
| C82 | Bundles over a serial line arrive as they were sent | Slip | RFC 1055 as an inductive relation; the receiver as a step function on bytes and pops, simulated by a core without the ring; induction over packets |
| C83 | Every bundle given to a serial interface is accounted for | Slip | invariant that splits the bundles taken into sent, lost and queued. False for empty bundles that fail, the count after a failure, and bundles of 4 GiB |
| C84 | Bundles over an STCP connection arrive as they were sent | Stcp | streams of data units as an inductive relation read in one way only; invariant of the sink on what has arrived, been read and been put out; rest implies completeness; joined with the invariant of the source |
| C85 | Every bundle given to an STCP source is accounted for | Stcp | invariant that gives each bundle taken a fate; histories without failures. False after a failure: the sizes waited for are kept, general theorem and witness; false for bundles that are empty or near 4 GiB |
| C86 | Every bundle given to a UDP source is accounted for | Udp | invariant that splits what was taken into sent, failed and pending, for one form of bundles. False for a mix of both forms under a rate limit (witness) and for failures (general theorem: nobody is told) |
| C87 | A UDP source keeps to its rate and sends what is queued | Udp | log of sends, times and refreshes; invariant on the tokens for every end piece of the log. Proved with two buckets; false with one, since the time of the last refresh is stale after a pause (witness), and the stale time overflows at high rates (witness) |
| C88 | A UDP sink gives its user the datagrams as they came | Udp | induction over histories; false for datagrams over the limit (general theorem) |
| C89 | Initialization vectors are not used twice | Iv | a vector is a number below 2^96 or 2^128 made of time and counter; the ranges of two objects of a process are disjoint. Across two processes it is false if the clock shows the same time again (general theorem) |
| C90 | The BPSec policy for a bundle is found | BpSecPolicy | three nested filters; what is at every place after every history of calls, then the place a search arrives at in terms of the calls alone. False that a matching policy is always found: stricter patterns mask it (witnesses); proved for exact rules and for uniform sources |
| C91 | BPSec policies are loaded as configured | BpSecPolicy | loading as a list of steps with an invariant on the policy of every place; acceptance as an equivalence. False for the rule on encrypted integrity blocks (general theorem and witness) |
| C92 | Encrypted blocks are decrypted to what they were | BpSecBundle | the cryptographic functions are a parameter with the laws assumed of them; the bundle as its layout, one target after the other overwritten in place; then rendering (C78) and loading (C77). False for the room before the bundle (part of the theorem) and for initialization vectors, which all targets share |
| C93 | Signed blocks are verified | BpSecBundle | as C92. False for the room before the bundle |
| C94 | What is accepted is authentic | BpSecBundle | induction over the loop: errors are never forgotten, targets not yet handled are unchanged. False that memory is safe: short tags and long wrapped keys (witnesses) |
| C95 | Encrypted blocks at the nodes of a bundle's way | BpSecProcess | a relation between views that differ in marks and in the targets of confidentiality blocks, kept by every step; the loop over the blocks by induction. False for unprotected bundles, for policies without confidentiality at the destination and for blocks decrypted in part (witnesses) |
| C96 | Failed security operations have the configured effect | BpSecProcess | induction over the errors, the last index first, with the lists without the positions handled so far. False for the primary block as target and for encrypted integrity blocks at a verifier (witnesses) |
| C97 | Bundles are protected as the policy says, and arrive | BpSecProcess | what signing and then encrypting make of a view, then what the acceptor's steps make of it, each by the theorems C92 and C93 with blocks in front. False for types that do not occur in the bundle, for the primary block as target and for key encryption keys at a source (witnesses) |
| C98 | Forwarded bundles change only as a hop changes them | Ingress7 | the view after the two edits, and what rendering in place makes of it (C77, C78); chains by induction. Part on dropping false for hop counts of 2^64 - 1; false for encrypted hop counts, for numbers taken by absent targets, for previous node blocks that fail an integrity check and for policies as source on the two blocks (witnesses) |
| C99 | The node's own services: echo, ping and custody signals | Ingress7 | the same, with a primary block that is written anew. False for nodes that sign what they echo (witness) |
| C100 | The pipeline limits of an outduct | Node | invariant over all interleavings: the maps of reservations are exactly the bundles on the ways they are for. What an outduct holds only while the routes stay; false when a route changes (witness) |
| C101 | The bound on memory | Node | the same invariant: one and a half times the limits. The documented bound is false (witness), and what egress gives back is not limited at all (proved for every number) |
| C102 | Which way a bundle goes | Node | decision logic, with the counters of bytes replaced by the bundles they stand for; the rest by invariants |
| C103 | No bundle disappears inside the node and none appears | Node | account of every bundle as an invariant; no loss by induction over runs in which nothing fails. False when storage cannot write, which is answered as a success, and when a queue to egress is full (witnesses) |
| C104 | Reservations are given back | Node | from the invariant. False for ways through storage when a queue to egress is full: the reservation stays for ever (proved for every continuation) |
| C105 | What the modules know of links | Node | step by step. False for bundles from ingress that could not be sent, for bundles without outduct and for link changes that come early (witnesses) |
| C106 | Strict priority | Node | decision logic, for the first of the queue and all on the disk. False for the bundles behind the first of the queue (witness) |
| C107 | The disk and the queue take turns | Node | the flag for the next look is changed by looks only |
| C108 | What the router tells about links | Router | invariant over all runs of handlers |
| C109 | Links follow the contact plan | Router | the list of events is sorted, its handled part is what is before now; for contacts that do not touch. False for contacts that touch or overlap and when a plan is loaded while a handler waits (witnesses) |
| C110 | Routes follow the links | Router | invariants on routes and destinations per outduct, with C79 for the search |
| C111 | Failed contacts are avoided | Router | for a link that goes down, from C110. False for a contact that starts while its link is down (witness) |
| C112 | Neighbours without storage are left alone for a time | Router | invariant on the list and its timer. False for repeated reports (witnesses) |
| C113 | Egress knows the schedule | Router | for one plan, as C109. False when a plan is loaded during a contact and for links set by a user (witnesses) |
| C114 | Files that are sent arrive | FileTransfer | invariant over the payloads that came, with C07 for what is received, composed with C115. Partial: files up to eight gigabytes, pieces up to two; false behind eight gigabytes |
| C115 | All files are sent, in pieces that are not too large | FileTransfer | induction on what remains. Partial: limits from one byte to less than four gigabytes, readable files, paths up to 255 bytes; false for others (general theorems) |
| C116 | Any payload is safe to receive | FileTransfer | invariant: what is incomplete is open. Partial: payloads that are as long as they say, one size for each path; false for others (general theorems) |
| C117 | Files that are there are not overwritten | FileTransfer | invariant over all payloads |
| C118 | Files are only created below the directory | FileTransfer | only named files change. False for the directory: any path is taken |
| C119 | Encapsulation headers | Encap | case analysis over the ranges of sizes |
| C120 | Packets get through a local stream | Encap | invariant: state of the reader for each prefix of the stream. Partial: without idle packets, invalid headers and payloads of four gigabytes; false for those (general theorems) |
| C121 | Any bytes on a local stream | Encap | invariant over bytes. False for the memory (general theorems) |
| C122 | A source of bundles loses none | Source | invariant over all interleavings. Partial: without in-place rendering for a security policy; false with it |
| C123 | All bundles sent means all bundles sent | Source | invariant. Partial: without a failure between two checks; false with one |
| C124 | The pipeline of a source | Source | invariant. False for a refused bundle and a pipeline of one (for all later events) |
| C125 | Bundles of a source have different timestamps | Source | induction over times. Partial: clock not set back, one run; false otherwise (general theorems) |
| C126 | One bundle for one bundle | Source | invariant. False that a failed bundle is sent again (for all later events) |
| C127 | What a source takes as an answer | Source | case analysis. False for version 7, where the primary block is not looked at (general theorem) |
| C128 | All custody transfers received | Source | induction over histories. Partial: without aggregate signals; false with repeated ones |
| C129 | A sink gives the application what was sent to it | Sink | case analysis over the view and custody. Partial: without fragments (C130); false for administrative records (general theorem) |
| C130 | A sink puts fragments together | Sink | from C40, over histories. Partial: without custody |
| C131 | A sink tells custodians about their bundles | Sink | from C66 to C68. Partial: as long as no more than 2000 bundles wait; false beyond, and for fragments that do not fit together |
| C132 | The echo service of a sink, version 6 | Sink | rendering. Partial: whole bundles; false that bundles end, and that answers have an identity (general theorems) |
| C133 | A sink and bundles of version 7 | Sink | from C98 and C99. Partial: for bundles that the security processing leaves as they are; false that bundles end |
| C134 | A sink sends its answers | Sink | invariant over all interleavings. Partial: up to 2000 bundles; false for retries (for all later events), and for two receiving threads |
| C135 | Memory in files: what is read is what was written | FileMem | invariant: the queues applied to the disk give the contents of all blocks; first operations of files commute with others. Partial: without errors; false with one |
| C136 | Memory in files: each handler is called once | FileMem | invariant. At most once: for all histories. Partial: called, without errors; false with errors, for refused requests, and beyond 64 bits |
| C137 | Memory in files: blocks are apart and live long enough | FileMem | invariant for all histories, with errors. False that a block can be deleted only once |
| C138 | Memory in files: sizes | FileMem | arithmetic, case analysis. False that a call that fails leaves no block, and for the size returned when shrinking |
| C139 | Streaming: payloads are whole | Stream | invariant over all interleavings. Partial: no bundle is overwritten between length and copy; false without that |
| C140 | Streaming: nothing is lost without an overflow | Stream | invariant; a schedule that empties the queues. False for the last packets of a stream |
| C141 | Streaming: only packets of RTP version 2 | Stream | case analysis. False for version 3 |
| C142 | Streaming: the receiver takes payloads apart | Stream | invariant; round trip. False for payloads not made of packets |
| C143 | Streaming: from end to end | Stream | from C139, C140 and C142; partial as C139 |
| C144 | Simulator of a delayed link: order, contents and delay | DelaySim | invariant: the ring holds the accepted packets that were not sent |
| C145 | Simulator of a delayed link: loss of signal | DelaySim | invariant of the timer |
| C146 | Simulator of a delayed link: no packet is forgotten | DelaySim | invariant; a schedule that sends all. False for a ring with one place |
| C147 | LTP engine: every bundle is answered for | LtpSessions | accounting invariant over all events. False with blocks on the disk, for empty blocks, and for a bundle already told complete |
| C148 | LTP engine: nothing is left behind | LtpSessions | invariant of the queues and of the pipeline; a measure that each event decreases. False with the disk when reads fail |
| C149 | LTP engine: what goes first | LtpSessions | a monitor in the model; invariant of the queues |
| C150 | TCPCLv3 link: what is forwarded arrives | TcpclV3Link | invariant relating the receiver's future to the sender's history; a measure that every move decreases. False for empty bundles |
| C151 | TCPCLv3 link: what is reported as sent has arrived | TcpclV3Link | same invariant, with marked acknowledgements. Connections that begin while nothing is unacknowledged |
| C152 | TCPCLv3 link: what is accepted | TcpclV3Link | same invariant. False: four more than configured are accepted |
| C153 | TCPCLv3 link: bundles of a connection that ended | TcpclV3Link | false in five ways (witnesses) |
| C154 | LTP over UDP: packets reach their engine | LtpUdpManager | invariant relating engines, table of indices and cached iterator; uses the properties of SDNVs (C02), segments (LtpWire) and session numbers (C15) |
| C155 | LTP over UDP: no datagram disturbs the others | LtpUdpManager | same invariant, for datagrams of known types. False for unknown types, and for cut ones |
| C156 | LTP over UDP: adding and removing engines | LtpUdpManager | by cases; same invariant. False after outducts were removed |
| C157 | LTP outduct: the number of bundles under way | LtpSource | invariant relating the counter to requests and sessions over all interleavings. False: one more is accepted, a race refuses bundles, given up requests and foreign sessions stay counted |
| C158 | LTP outduct: counts | LtpSource | invariant modulo 2^64; induction. False during a call |
| C159 | LTP outduct: waiting at the end | LtpSource | induction over the answers |
| C160 | BP over encapsulation packets: answered once, in order, delivered | EncapDuct | invariant over all events; composed with C120 for the receiver; measure for draining. False: no recovery after a failed write |
| C161 | BP over encapsulation packets: acceptance and counts | EncapDuct | decision stated outright; invariant. False: four more accepted, failed ones count as unacknowledged for ever |
| C162 | BP over encapsulation packets: the way back | EncapDuct | invariant over all events; composed with C120. False: lost without a report, stuck after a failed write, asleep after a connection |
| C163 | LTP over shared memory: packets arrive unchanged, in order and once | LtpIpc | invariants over all interleavings: counts of places, contents of places; measure for draining. False: refused packets let others be written over; packets too long cost places for ever |
| C164 | LTP over shared memory: which packets are let in | LtpIpc | direct, with the segments of LtpWire. False for first bytes of 32 and more and for cut packets |
| C165 | Repeater for encapsulation packets: unchanged, in order and once | EncapRepeater | invariant over all events; with C120 for the bytes. False after a failed write |
| C166 | Repeater for encapsulation packets: bounded, and never stuck | EncapRepeater | the same invariant; measure for draining. False: the configured size is not used, reconnections pass the bound, stuck after a failed write |
| C167 | Loading the outducts of a node | OutMgr | induction over the entries, with an invariant for the map of next hops. False for sizes of bundles of 2^63 and more |
| C168 | Routes lead to the outducts that the router named | OutMgr | refinement: the map of routes against the last update for each destination. False: the limit is passed by one |
| C169 | LTP over encapsulation packets: what goes out | LtpEncap | invariant over the events: the bytes on each connection against the calls; the receiver by C120 |
| C170 | LTP over encapsulation packets: nothing is forgotten | LtpEncap | invariant: the engine's count is what waits. False: after five calls on a lost stream nothing is ever written again |
| C171 | Many UDP packets per system call: what is sent and what is reported | UdpBatch | invariant: what was sent against the answers and the operation in progress. False for packets without buffers |
| C172 | Many UDP packets per system call: every batch is answered | UdpBatch | the same invariant; measure: messages that wait. False for a batch without data: stuck for ever |
| C173 | Each file of a directory is sent once | DirScan | invariant: sent, current and list are a sublist of what was found, and with the lost ones a permutation of it. False: two files in the list when the timed wait begins |
| C174 | New files are found when they no longer change | DirScan | invariants: the counts are those of the queue; the stored size is that of the last change. False: removed files, and files that grow without an event |
| C175 | The queue of writes of a TCP connection | TlsSender | invariant: what was sent is what was written and the queue, or after an error what was written, one element in part, and failed ones |
| C176 | What is to be secured is written through TLS | TlsSender | invariant: the queue is for the layer of the write in progress. False: the handler of a write goes on with its own layer |
| C177 | Hexadecimal text and the key files of BPSec | HexKey | induction over the text against a relation between text and bytes |
| C178 | Memory of the allocator that keeps unused nodes | FreeList | invariant over histories: memory in use = held by the user + kept, each address once |
| C179 | User data given back is handed out again, once | Recycler | invariant over histories: accepted = given out + in the bin |
| C180 | Conversion between times of DTN and of the clock | DtnTime | arithmetic of integers, against nanoseconds since the year 2000 |
| C52 | BPv7 extension blocks survive the wire | Bpv7Canonical | uses C34, C37; the write-allocate-recompute sequence as the code does it |

## Disagreements between code and expected properties

Found by reading. Where a theorem is named, the disagreement is machine-checked.

* `FragmentSet::RemoveFragment` does nothing when the removed range abuts an entry on its left
  (`C09_remove_violated`).
* The accelerated SDNV array decoder calls `find_lsb(0)` on 32 consecutive continuation bytes
  (`C03_array_undefined`). The CBOR size functions call `find_msb(0)`, formally undefined in Boost
  but harmless with the intrinsic; the model takes the guarded value.
* The bounded CBOR list serialiser touches one byte outside an empty buffer
  (`C06_array_bounded_empty_violated`).
* A claim that runs past 2^64 corrupts the LTP sender's record (`C12_wrapping_claim_violated`).
  `SplitReportSegment` reads the last claim of a report without claims (`C11_split_no_claims`).
* LTP receiver: `offset + length` may wrap, giving a write outside the reassembly buffer
  (`C14_wrap_violated`); a segment reported without its data is copied from a null pointer
  (`C14_missing_data_violated`). With deferral, a checkpoint whose report would overlap one that is held
  back is never answered (`C58_violated`). A green segment that ends the block closes the session at
  once if no red data has arrived (`C59_green_first_violated`) or all of it has
  (`C59_unacknowledged_violated`), whatever reports are outstanding.
* LTP sender: a red part said to be longer than the block is read beyond it
  (`C16_red_too_long_violated`). A report whose claims wrap at 2^64 completes the session without any byte
  of the block being claimed (`C17_wrap_violated`); a claim outside the red part keeps it from ever
  completing (`C17_outside_claims_violated`); a session for an empty block never ends
  (`C17_empty_block_violated`). A report with a scope beyond the red part makes the sender read outside the
  block (`C60_scope_violated`), one with upper bound 0 makes it loop for ever
  (`C60_endless_violated`).
* LTP sessions together: when a checkpoint completes the red part, the receiver delivers it but makes no
  report beyond what that checkpoint asks for, and ignores all later checkpoints. If checkpoints are
  reordered (`C62_checkpoints_violated`) or a report had to be split (`C62_split_reports_violated`) the sender
  can never learn that all has arrived: it repeats its checkpoints up to the limit and reports failure.
* `LtpRandomNumberGenerator::IsPingSession` accepts some ordinary session numbers
  (`C15_ping_confusion_violated`).
* Custody identifiers: identifiers restored from disk are not given to the allocator
  (`C31_restart_violated`, ZmqStorageInterface.cpp:1193), a received aggregate custody signal frees
  identifiers never issued (`C31_foreign_free_violated`, :514), and its loop over a range that ends
  at 2^64-1 does not end.
* Custody timers: after the clock is set back, a due timer can hide behind one that is not
  (`C32_clock_set_back`). Cancelling with another destination than the one started with is
  undefined behaviour (ZmqStorageInterface.cpp:1365).
* The endpoint and array writers with a buffer size return a non-zero count when the inner part
  does not fit. An endpoint `ipn:0.s` becomes `dtn:none` in BPv7 (`C34_bpv7_node_zero`).
* BPv7 primary blocks: decoding a non-fragment into a reused object keeps the old fragment fields
  (`C35_stale_fragment_members`); `largestSerializedPrimarySize` is too small by 6 (not used).
* One corrupted length byte can move the end of a BPv7 block so that other bytes act as its CRC
  (`C36_primary_moved_end`, `C36_canonical_moved_end`).
* A canonical block whose data carries the CBOR tag 24 is refused: only the first of the two bytes
  of the tag is skipped (`C37_tag24_refused`).
* `ParseIpnUriString` accepts signed numerals: `ipn:-1.+7` is node 2^64-1 (`C53_signs_accepted`).
* A BPv6 previous hop block with two numbers of twenty digits is written but refused by the reader
  (`C54_previous_hop_largest_refused`).
* Aggregate custody signals without identifiers, and status reports and custody signals whose
  endpoint text is shorter than 5 or longer than 65535 bytes, are written but refused by the reader
  (`C41_accepted_iff`, `C55_status_read_iff`).
* A BPv6 block that spells its flags, though below 128, in several bytes is damaged by rendering
  (`C56_long_flags_corrupted`).
* `Bpv6Fragmenter::Assemble` accepts fragment lists that do not cover the data unit
  (`C40_incomplete_accepted`); a fragment without payload makes the manager deliver zeros
  (`C40_empty_fragment_completes`), and one whose offset and size exceed 2^64 makes it copy outside of
  its buffer (`C40_offset_wraps`).
* A BPv6 fragment can be written past the end of its buffer, which has the size of the original
  (`C39_fragment_overflows_buffer`). Fragments of bundles with administrative records are sent but do
  not load (`C39_admin_fragment_refused`). The blocks behind the payload are taken from the fragment with
  the largest offset, which need not be the last when a bundle was fragmented for different sizes: they
  are lost (`C39_overlap_violated`).
* C42: `CustodyTransferManager::SetCreationAndSequence` never records the last creation time, so the
  sequence number is always 0, and any two bundles generated in one second have the same identity
  (`C42_violated`).
* LTP parser: a report that announces 2^31 claims or more is read differently in one buffer and in
  several, as the number of values asked for is cut to 32 bits (`C19_many_claims_violated`). When the
  trailer of a data segment comes in a later call, the data pointer given to the callback refers to the
  buffer of an earlier call (`C19_trailed_data_violated`). Sixteen extensions do not fit into the byte of
  the counts (`C18_sixteen_extensions`). Memory is reserved for lengths and counts from the wire without
  a limit (not modelled).
* C43: the TCPCLv3 receiver enforces the bundle size limit only while it reads the length of a data segment byte by
  byte. With 16 more bytes in the buffer it takes a shortcut without the test, so that segments of any size are
  delivered (`C43_limit_violated`) and a length that cannot be allocated ends in an uncaught exception
  (`C43_throws_violated`). A length that does not decode is skipped or searched for a contact header, depending on
  the chunks (`C43_resync_violated`). The length of the endpoint in a contact header is not limited at all
  (`C43_contact_throws`).
* C44: a TCPCLv3 data segment without contents makes the receiver swallow everything that follows
  (`C44_empty_violated`).
* BPv7/BPv6 expiration wraps for huge lifetimes (`C48_violated`), and the catalog keeps 60 bits.
* BPv6 priority 3 indexes past the three priority queues (`C49_violated`).
* A bundle with the identity of a stored custody bundle is refused by the catalog, but the storage
  manager ignores the answer, so that its segments leak (BundleStorageManagerBase.cpp:223, :637).
* C28: `ReadFirstSegment` on a bundle of more segments leaves a read of the second one under way. When the same
  read session is used for another bundle, as `ZmqStorageInterface` does after a deletion report, that segment can
  be taken for one of the other bundle's; the mismatch is noticed in the header but only logged, and the call
  succeeds with wrong contents (`C28_read_ahead_violated`).
* C29: restoring ends at the first free segment past the end of the files. If every segment has been written once
  there is none, and it never ends (`C29_full_store_violated`, BundleStorageManagerBase.cpp:535-653). A destination
  mask is not on disk, so that after a restart bundles wait under the destination in their primary block.
* C30: a crash between the writes of a bundle of two segments makes restoring fail, after which the files of all
  bundles are emptied (`C30_between_writes_violated`).
* C65: the segments of a refused duplicate leak (`C65_duplicate_violated`).
* C20, cancel segments: their retry count has 8 bits and the limit 32, so with a limit of 255 or more an
  unanswered cancel segment is sent for ever (`C20_cancel_endless_violated`), no cancellation fails, and pings
  never report the link down (`C63_never_down_violated`). Proved for limits up to 254.
* C63: the cancel segment of an ordinary session whose number looks like a ping's (see C15) reports the link
  down although pings are switched off (`C63_lookalike_violated`).
* C64: the id 0 (for session ids, engine 0 and number 0) also stands for no timer. Once a timer is started with
  it, no timer of that manager ever calls back, and the handler runs again and again without pause
  (`C64_zero_violated`). A peer can cause this for cancel segments, with a data segment for an unknown client
  service in session (0, 0). Shortening the duration without adjusting the running timers makes timers late
  (`C64_shorter_violated`); adjusting them while the handler is due makes one early (`C64_race_violated`).
* C67: an aggregate custody signal is written to a buffer of 2175 bytes without a check. With 1088 ranges it is
  always overrun (`C67_violated`). The threshold in the configuration is not limited; up to 100 ranges, its default,
  are safe (`C67_threshold`).
* C68: a range that ends with 2^64-1 makes `ProcessAdminRecord` loop for ever (`C68_endless_violated`). The source
  of a signal is not compared with the node the bundle was sent to, so that anyone can release bundles.
* **C46** (TCPCLv4): a SESS_INIT whose node ID is empty (RFC 9174 allows it) is never reported: the parser goes to the state that reads the
  node ID and compares its size with 0 only after a byte was added (TcpclV4.cpp:781-796), so everything that follows is taken for the node
  ID (`C46_empty_node_violated`).
* **C46**: `m_transferExtensions` is cleared when a segment is delivered and when a first segment begins, but neither when a segment is refused
  nor by `InitRx` (TcpclV4.cpp:353-356, :499-509, :554-565). A later segment that is not the first of its transfer is reported with the
  extensions of the refused one (`C46_stale_violated`, `C46_init_rx_violated`). The link layer above makes no use of extensions of later segments (TcpclV4BidirectionalLink.cpp:213-276).
* **C46**: the length of extension items is counted in 32 bits (TcpclV4.cpp:608-615), so announced and real length are compared modulo 2^32
  (`C46_sound_partial`).
* **C69**: Forward accepts an empty bundle and sends a segment of length 0, at which the peer's parser gives up. Nothing after it is delivered,
  although the session stays up on the sending side (`C69_empty_violated`).
* **C70**: XFER_REFUSE is only logged (Link.cpp:839-851): the refused bundle is reported neither as sent nor as failed, and the expected
  acknowledgement stays at the head of the queue, so that no later bundle is reported (`C70_refused_violated`).
* **C70**: a second SESS_INIT on a session replaces the queue of expected acknowledgements (Link.cpp:1017): outstanding bundles are never
  reported (`C70_init_violated`). The same code runs on reconnecting, where the failed bundles have been collected before.
* **C71**: when the queue is full in the middle of a bundle, BaseClass_Forward returns false and leaves the entries of the first segments in the
  queue; from then on acknowledgements never match, and nothing is reported as sent (`C71_overflow_violated`). The refused bundle has been
  counted as sent. (Also, not modelled: the elements of its segments leak, and when the last segment is the one that fails the caller's
  data has been moved away.) Callers avoid this as long as they observe the maximum number of unacknowledged bundles.
* **C71**: the transfer MRU of the peer is never compared with the size of a bundle (`C71_mru_violated`).
* **C72**: the receiver ignores transfer IDs: segments of two transfers are put together (`C72_mixed_violated`), a segment that is not the first
  one continues whatever is in the buffer (`C72_stray_violated`), and the own transfer MRU bounds segments, not transfers
  (`C72_mru_violated`), so that a peer can claim any amount of memory.
* **C73**: a SESS_INIT with transfer MRU 0 divides by zero (Link.cpp:1014, `C73_zero_violated`); an XFER_ACK before SESS_INIT dereferences a null
  pointer (Link.cpp:318, `C73_ack_violated`); a large transfer MRU with a small segment MRU allocates without bound
  (`C73_memory_violated`).
* **C73**: when TLS is required and the peer has none, the session termination is only queued, and a data segment that has arrived with the contact header
  is still delivered (`C73_tls_violated`); data segments are delivered before any SESS_INIT (`C73_early_violated`).
* **C73**: an expected EID that cannot be parsed makes every peer welcome; the log says the opposite (Link.cpp:107-122,
  `C73_expected_violated`). An unknown critical session extension is only logged as terminating the session (Link.cpp:1028-1040,
  `C73_critical_violated`).
* C74: a bundle status report in which no status is asserted is written but never read back (`C74_unasserted_violated`). When the
  array of the four statuses is of indefinite length, the reader does not expect its break: the proper encoding is refused and an
  improper one accepted (`C74_indefinite_violated`). A status array that announces two items and holds only `false` is accepted
  (`C74_short_status_violated`). An encapsulated bundle with tag 24 (two bytes) is refused (`C74_tag_violated`). A record with a code
  that is not supported is written anew without its content (`C74_unsupported_violated`). `IsEqual` ignores the times
  (`C74_times_violated`).
* C75: the source of a security block is read with the size of the whole block as limit. If it crosses the end of the block, the number of
  bytes left wraps around and the reader runs over the end of the memory (`C75_overread_violated`). The byte before a result is read without a
  look at the bytes left (`C75_one_past_violated`). A block object that is used again keeps the parameters of the block before
  (`C75_stale_violated`). Two results of a target are refused (`C75_two_results_violated`), a block without results is accepted
  (`C75_results_violated`), context 2^32 + 1 is taken for context 1 (`C75_context_violated`), and reserved flags make the reader refuse the
  block (`C75_flag_violated`).
* C77: loading a security block inherits the reads behind the memory of C75 (`C77_fault_violated`) and the parameters of the bundle before
  (`C77_stale_violated`). `Render(max)` never compares the size of the bundle with `max`: every bundle that is too large is written behind the
  buffer (`C77_overflow_violated`). Without blocks it renders something that is no bundle (`C77_empty_violated`), as it does with two payload
  blocks (`C77_two_payloads_violated`). `GetSerializationSize` fails when a deleted block is last (`C77_size_violated`). `RenderInPlace` with a
  changed payload returns false with pointers to freed memory left in the view (`C77_in_place_dangling_violated`), or overruns its temporary
  memory when the payload was shortened (`C77_in_place_overflow_violated`). Loading accepts blocks that share a number
  (`C77_numbers_violated`).
* C78: deleting blocks frees their number even if another block has it (`C78_shared_violated`); deleting the payload block makes 1 the next
  number for any block (`C78_payload_violated`); after the largest number comes 0 (`C78_wrap_violated`).
* C79: outside its assumptions, a negative light time gives a route that is not the earliest (`C79_negative_violated`), times near the end of
  `time_t` overflow (`C79_overflow_violated`), and a contact whose volume is a multiple of 2^64 is taken for used up
  (`C79_volume_violated`).
* C80: the queue holds the start vertex with the same key as all others, so that the search starts at the smallest node number: no route
  ever leads to a node with a number below that of the source (`C80_smaller_never`, `C80_smaller_violated`). A contact to a node without
  contacts of its own hides all routes (`C80_dead_end_violated`). The router's present time is not used, contacts that are over are
  (`C80_past_violated`). A contact that ends as a bundle gets to it fails an assertion (`C80_tie_violated`); overlapping contacts
  (`C80_overlap_violated`) and contacts that are suppressed or used up (`C80_usable_violated`) are not treated as such; a source without
  contacts reads an uninitialised id (`C80_no_contact_violated`).
* C81: the best delivery time of a route is that of a bundle that sets out at time 0 (`C81_delivery_violated`).
* C82: with a ring of one slot nothing is ever received (`C82_one_slot_violated`).
* C83: nobody is told of an empty bundle that fails (`C83_empty_violated`). Bundles that failed count as not acknowledged for ever
  (`C83_unacked_violated`). Of a bundle of 4 GiB or more only the size modulo 2^32 is sent, and success is reported
  (`C83_large_violated`).
* C84: with a ring of one slot nothing is ever received (`C84_one_slot_violated`).
* C85: the sizes of bundles that failed stay in the list of sizes waited for. After the next connection no bundle of another size is
  ever reported sent, and once the list is full no bundle is taken (`C85_stale_violated`, `C85_wedged_violated`). Bundles of 4 GiB - 4
  bytes or more are written and never reported (`C85_large_violated`). An empty bundle is written as a keepalive and reported sent, or
  fails without a report (`C85_empty_violated`).
* C86: vectors and ZeroMQ messages have a queue each but one ring of acknowledgements: if both are used under a rate limit, another
  bundle is reported sent, or the socket is closed for good (`C86_mixed_violated`). A failed send is never reported, and the source
  never opens its socket again (`C86_failed_violated`).
* C87: `m_lastTimeTokensWereRefreshed` is stale after a pause, so that the first refresh after it fills the bucket
  (`C87_burst_violated`), and at high rates the product with the pause overflows a signed integer (`C87_pause_violated`).
* C88: a datagram over the limit is cut and given to the user as if it were whole (`C88_cut_violated`).
* C89: the first vector is the time in microseconds since 2000 and zeros: a process that is started while the clock shows a time that an earlier one
  has used (a clock set back, two processes with one key) repeats its vectors (`C89_restart_violated`).
* C90: a search does not go back: a filter for an endpoint or a node masks a wildcard rule that matches, also if the stricter rule is for
  another bundle source, for another role or was refused (`C90_masked_violated`, `C90_role_violated`, `C90_refused_violated`). The
  cache is not cleared when a policy is created (`C90_cache_violated`).
* C91: `ValidateAndFinalize` runs on a policy with neither service switched on, so that it never refuses anything, and the flags it sets are never
  set (`C91_overlap_violated`).
* C92, C93: rendering in place is always told that 256 bytes are free in front of the bundle; if less are, it writes before the memory (in
  `C92_encrypt_partial`, `C93_sign_partial`). All targets of one confidentiality block share key and initialization vector, so that equal data
  have equal ciphertexts (`C92_same_iv_violated`).
* C94: 16 bytes of the tag are read even if it is shorter (`C94_short_tag_violated`), and only 16 of a longer one count; a wrapped key of more than
  50 bytes overflows an array on the stack (`C94_wrapped_key_violated`).
* C95: policies are looked up only for security blocks that are there: a bundle from which they were stripped passes (`C95_required_violated`). A
  policy for integrity alone switches off the rule for missing policies at the destination (`C95_integrity_only_violated`). If one of several
  targets cannot be decrypted, the others are, but stay listed as encrypted (`C95_half_decrypted_violated`).
* C96: a primary block with a wrong HMAC is not removed, and the bundle with it passes, if the action is to remove the target
  (`C96_primary_violated`). At a node that cannot decrypt an integrity block, the policy is looked up with the security source of a bundle that was
  processed before (`C96_stale_violated`).
* C97: a policy may name types of which the bundle has no block; the bundle is sent, and an acceptor with the same policy drops it
  (`C97_absent_type_violated`). Type 0 in an integrity policy does not make the source sign the primary block (`C97_primary_violated`). A source
  with a key encryption key (exactly one of key and key encryption key can be configured) sends nothing (`C97_kek_violated`).
* C98: a hop count of 2^64 - 1 becomes 0 and the bundle is passed on (`C98_wrap_violated`). If the hop count block is encrypted and the node
  has no policy, the code works on members that were never read: with zeros there the bundle is dropped, with others it is passed on with the
  old count (`C98_encrypted_violated`). The number of a new previous node block may be one that a confidentiality block names although no such
  block is there; the next node then takes it for encrypted (`C98_number_violated`). A previous node block that fails its integrity check is
  marked for removal, then updated, and removed: the bundle leaves without one (`C98_removed_violated`). A node that is the security source for
  hop counts signs the bytes before they are updated, and the acceptor drops the bundle (`C98_signed_violated`). If it is the source for
  previous node blocks and adds one, it reads the bytes of a block that has none: undefined behaviour (`C98_new_violated`).
* C99: what a node echoes is signed before the endpoints are exchanged; if the primary block is in the scope an acceptor drops it
  (`C99_signed_violated`).
* C100: ingress and storage reserve for the outduct they know; egress looks the outduct up again. After a change of a route the bundles that
  were reserved for the old outduct go into the new one beside those reserved for it: twice the limits (`C100_outduct_violated`).
* C101: receive.cpp's comment says that the worst case is the sum of the outducts' maxSumOfBundleBytesInPipeline, plus maxBundleSizeBytes.
  Ingress reserves half for the direct way and half for the way through storage, and storage another half for what it reads from the disk:
  one and a half times (`C101_memory_violated`). Bundles that egress gives back to storage are in a queue without a limit, and their
  reservations are given back before storage has them (`C101_given_back_violated`).
* C103: Write of ZmqStorageInterface returns false when the disk is full; the result is not used and ingress gets an answer without error, so
  that a bundle, also one that asks for custody, is gone (`C103_write_violated`). SendFromCutThroughQueue takes the bundle from the queue
  before it is sent, and drops it when the queue to egress is full (`C103_queue_violated`).
* C104: in the same case nobody answers ingress: its reservation stays for ever (`C104_forever_violated`), and with a small limit this closes
  the way (`C104_closed_violated`).
* C105: the header that egress sends with a bundle that could not be sent is value-initialised, so its outduct index is 0: storage marks
  outduct 0 down whichever failed (`C105_failed_violated`), also when there was no outduct for the bundle (`C105_no_outduct_violated`), although
  CHANGELOG.md, 1.2.1, says that no link is marked down then. For a bundle on the way through storage it is ingress that marks the link down
  (`C105_cut_violated`). A link that goes down before storage has the capabilities of egress is remembered as up (`C105_early_violated`).
* C106: the queue in storage is first in, first out: a bundle of low priority at its front is sent before one of high priority behind it
  (`C106_priority_violated`).
* C109: AddContact_NotThreadSafe puts an event behind those at the same time. When a contact starts as another one with the same neighbour ends
  and is listed first, the link goes up and then down, and stays down during the contact (`C109_touching_violated`); of overlapping contacts the first
  that ends takes the link down (`C109_overlapping_violated`). ProcessContacts cancels the timer, but a handler that is already queued runs and takes
  the first event of the new plan, whenever it is due (`C109_early_violated`).
* C111: routes are computed only when a link goes up or down. A contact that starts while its link is down changes neither, so that routes which counted on
  it stay (`C111_failed_contact_violated`), against CHANGELOG.md ("Upon a failed contact, HDTN will attempt to calculate a new route avoiding the
  failed node").
* C112: a second report moves the entry but not the timer; OnStorageFull_TimerExpired finds that the first entry is not due, starts the timer again and
  then goes on to release it (`C112_repeated_violated`), and the timer that it started releases the next one early (`C112_other_violated`).
* C113: ProcessContacts and the API commands change a link without a message to egress about the schedule (`C113_reload_violated`,
  `C113_api_violated`).
* Router, not modelled: the API commands for links change the tables on the thread that reads messages, without a lock (router.cpp:1003-1024); the test bundle
  is copied as 33 bytes from a literal of 31.
* C114: the receiver ignores pieces at an offset of more than 8000000000 (BpReceiveFile.cpp:82), the sender sends them
  (`C114_large_file_violated`).
* C115: the length of a piece is cut to 32 bits; with a limit of four gigabytes or more, and with a limit of 0, empty pieces are sent for ever
  (`C115_large_limit_violated`, `C115_zero_limit_violated`). A file that cannot be read and one with a path of more than 255 bytes end the program, although
  other files are left (`C115_unreadable_violated`, `C115_long_path_violated`). The limit, which the option calls the maximal size of a bundle, is for the
  data only (`C115_payload_limit_violated`).
* C116: neither the length of the path nor that of the data is compared with the size of the payload (`C116_path_overread_violated`,
  `C116_data_overread_violated`; what is behind the payload goes to the file); when a file was received completely and comes again with another size, the stream
  that was reset is used (`C116_resized_file_violated`).
* C118: the path is appended to the directory as it is, with any ".." in it (`C118_any_path_violated`).
* C120: an idle packet is followed by StartReadFirstEncapHeaderByte_NotThreadSafe, which does nothing because m_readStarted is still true: nothing is
  read any more (`C120_idle_violated`). After an invalid header nothing is read and the stream is not closed (`C120_invalid_violated`). The size of a payload is
  cast to 32 bits before the check that it is not too large (`C120_large_violated`).
* C121: the size of the header is subtracted from the length without a check, so that a length of 0 or 1 becomes four gigabytes
  (`C121_short_violated`), and M_MAX_ENCAP_RX_PACKET_SIZE_BYTES is not compared with anything (`C121_no_limit_violated`).
* C122: with a security policy bundles are rendered in place and forwarded as ZeroMQ messages, and SetOutductManagerOnFailedBundleZmqSendCallback is not called:
  a bundle that fails is lost, and its identifier stays in the pipeline (`C122_secured_violated`).
* C123: m_bundleQueueFailed... is checked before m_currentlySendingBundleIdSet; a failure between the two empties the set and fills the queue
  (`C123_race_violated`).
* C124: the identifier of a bundle that Forward refuses stays in the set, and counts when room is looked for; with a pipeline of one bundle the thread
  waits for itself (`C124_stuck_violated`).
* C125: the sequence number starts anew with each change of the time (`C125_clock_back_violated`) and each start (`C125_restart_violated`).
* C126: after a failure the thread waits for an answer to the bundle that it would have to send again (`C126_hang_violated`).
* C127: in version 7 neither destination nor flags are checked (`C127_any_destination_violated`).
* C128: identifiers in aggregate signals are counted without a look at which are outstanding (`C128_repeated_violated`).
* C129: BpSinkPattern::Process does not look at the administrative record flag: the application gets custody signals as payload
  (`C129_administrative_violated`).
* C131: the result of Forward_ThreadSafe is not looked at: a custody signal that finds more than 2000 bundles waiting is dropped
  (`C131_dropped_violated`). Custody of a fragment is signalled before the fragment is added, which can then throw it away with all others of its bundle
  (`C131_lost_violated`).
* C132, C133: two echo services send a bundle to and fro without end, in version 6 always, in version 7 without a hop count block
  (`C132_forever_violated`, `C133_forever_violated`). The creation time of an echo is that of the original, its source is the echo service: answers
  to different nodes have the same identity (`C132_identity_violated`).
* C134: more than 2000 waiting bundles: dropped (`C134_dropped_violated`). OnFailedBundleVecSendCallback and OnOutductLinkStatusChangedCallback do not
  notify the condition variable that the thread waits on: a failed bundle stays until a new one comes (`C134_asleep_violated`). The number of a
  bundle that Forward refuses stays in the set; with a pipeline of one the thread waits for itself (`C134_stuck_violated`).
  m_custodySignalRfc5050RenderedBundleView is a member, rendered with the lock but moved from without it: with two inducts a signal is lost
  (`C134_shared_violated`).
* C135: HandleDiskReadCompleted tells the handler only about the operation that ended last: a read with an error in an earlier one is reported as
  success (`C135_error_violated`).
* C136: HandleDiskWriteCompleted does not call the handler if the operation that ended last had an error (`C136_error_violated`). A request in several
  parts that is refused has queued its first parts, and its handler is called (`C136_refused_violated`). offset + length is computed with 64 bits: a
  request beyond the end is accepted, nothing is done, and the handler is not called (`C136_wrap_violated`).
* C137: DeleteMemoryBlock succeeds twice between the last operation and the posted ForceDeleteMemoryBlock (`C137_twice_violated`); the latter logs an
  error then.
* C138: Resize to a smaller size returns that size, while the block stays as it is (`C138_shrink_violated`). AllocateNewWriteMemoryBlock leaves a block
  in the map when it fails (`C138_leak_violated`).
* C139: CopyPayload_Step2 copies whatever is first in the queue, while the length was told in GetNextPayloadLength_Bytes_Step1: if the queue overflows in
  between, the copy goes beyond the end of the memory, or old memory is sent (`C139_overrun_violated`).
* C140: a packet is put into a bundle only when the next one arrives, and a bundle only when it is full: the end of a stream is never sent
  (`C140_last_violated`). With numRtpPacketsPerBundle = 0 nothing is (`C140_zero_violated`).
* C141: the version is compared with a mask that accepts 3 also (`C141_version_violated`).
* C142: ProcessPayload believes the lengths in the payload (`C142_malformed_violated`): any bundle sent to the endpoint can make it read beyond the end.
* C146: with numCircularBufferVectors = 1 every packet is dropped (`C146_one_violated`).
* C147: a session that has been told complete waits in a queue to be deleted; a cancel segment that arrives then gives the bundle back as failed
  (`C147_completed_violated`). With blocks on the disk "sent" only means "written to the disk", and a session that fails later returns nothing
  (`C147_disk_violated`). A request for an empty block is never answered (`C147_empty_violated`).
* C148: OnDeferredReadCompleted does not take back the count of system calls when the read failed: after five failed reads in the life of the engine
  nothing is sent any more (`C148_stall_violated`).
* C150: an empty bundle is accepted by a TCPCLv3 link and sent as an empty data segment; the receiving parser takes the next byte for its contents, and
  nothing after it is understood (`C150_empty_violated`).
* C152: the ring of unacknowledged bundles has five places more than configured, one of which stays free: four bundles more than
  Virtual_GetMaxTxBundlesInPipeline tells are accepted (`C152_limit_violated`).
* C153: the ring of unacknowledged bundles of a TCPCLv3 link is not cleared when the link connects again. A bundle lost with the old connection is reported
  as sent when a later one of the same size is acknowledged (`C153_false_report_violated`); if sizes differ nothing is ever reported again and in the end
  the link refuses everything (`C153_stuck_violated`). Bundles that could not be written come back without user data, which the link had moved to its ring
  (`C153_returned_violated`); the egress reads its acknowledgement header from these data. On the side that accepted the connection what waits in the queue
  is dropped without a word (`C153_dropped_violated`). Refusals by the peer are ignored and leave the refused bundle first in the ring
  (`C153_refused_violated`).
* C155: a datagram of at least three bytes whose first byte is below 32 and not a type of LTP makes the manager close its socket and destroy the engines of all
  inducts and outducts on that port; nothing is received again (`C155_unknown_type_violated`). If the byte is 32 or more, a number is shifted by more than its
  width, which is not defined in C++ (`C155_undefined_violated`). If the session id is cut off, the bytes of an earlier datagram in the buffer
  decide which engine is given the packet (`C155_stale_violated`).
* C156: indices of removed outducts are not used again. After seven outducts were added and removed none can be added (`C156_readd_violated`; the code has a TODO).
* C157: one bundle more than configured is accepted (`C157_limit_violated`). A bundle can be refused although there is room, if a session starts between the increment
  of the counter and the comparison: it is counted twice (`C157_race_violated`). A request that the engine gives up (no memory on the disk, a write that cannot be started)
  stays counted for ever; after one more than the limit of them the outduct accepts nothing though nothing is under way (`C157_leak_violated`). A single
  data segment sent by the remote engine makes the engine start a session to receive and the counter wraps to 2^32 - 1: nothing is accepted from then on (`C157_foreign_violated`; reachable with LTP
  over shared memory or a local stream, where an outduct's engine does not check the direction).
* C158: if a session is over before `Forward` has counted its bundle, the number of unacknowledged bundles is 2^64 - 1 for a moment (`C158_wraps_violated`).
* C160: a failed write sets a flag that nothing clears. All bundles that wait are returned as failed; when the stream is connected again, the outduct says it is ready and accepts bundles, but returns each
  of them as failed, for ever (`C160_forever_violated`).
* C161: four bundles more than configured are accepted (`C161_limit_violated`). Bundles returned as failed are never taken off the number of unacknowledged ones
  (`C161_failed_violated`): stopping such an outduct always waits until its attempts are used up.
* C162: a bundle whose write fails is gone without a report, and so is an empty one (`C162_lost_violated`). After a failed write nothing is written again on any later connection, and five bundles more are taken
  and stay (`C162_forever_violated`). A bundle taken while there is no connection is not written when there is one, until another is handed over (`C162_asleep_violated`).
* C163: a packet that does not fit into a place of the ring takes a place for ever; after one less than there are places the thread of the sending engine waits for ever (`C163_leak_violated`). The place of
  a packet that is refused is given back before earlier packets are processed: after two refused ones the sender can write over a packet that the engine has yet
  to read (`C163_overwritten_violated`; packets for another engine or of an unknown type between good ones).
* C164: a first byte of 32 or more makes the behaviour undefined (`C164_undefined_violated`). A cut packet is judged by bytes left by an earlier one (`C164_stale_violated`). Inducts and outducts let in
  the segments of both directions (this follows from `C164_lets_in`, in which the role of the engine does not occur).
* C165: `sendErrorOccurred` is never cleared: after one failed write nothing is written on that stream again, also after it is connected again, and the packet of that write is lost (`C165_error_violated`).
* C166: the option for the size of the queue is stored and not used, the size is 5 (`C166_size_violated`). A stream that is connected again is read although the queue is full: there is no bound (`C166_bound_violated`).
  After a failed write the other stream is read until five packets wait, and then no more (`C166_stuck_violated`).
* C167: twice the longest bundle is computed with 64 bits and can wrap (`C167_overflow_violated`).
* C168: `OutductManager::Forward` compares with `>`: an outduct takes one bundle more than its limit (`C168_limit_violated`). No module of the repository calls it; egress has its own limits (C100).
* C170: a connection that is gained again starts no write, and an element whose write failed stays counted. If five calls wait, the engine sends nothing more, so nothing starts a write: the sender is stuck for
  ever (`C170_stuck_violated`, `C170_stuck_reached`). The log says that the packets are dropped; they are kept. LtpUdpEngine tells the engine in both cases;
  here the same comment stands in the branch for success only.
* C171: packets without buffers are skipped and still counted: failure is reported although everything was sent (`C171_holes_violated`).
* C172: a batch without data takes the sender and is never answered, though the comment says that it succeeds with the callback; nothing is sent afterwards (`C172_empty_violated`). The LTP engine makes no such batch.
* C173: `GetNextFilePathTimeout` asks again although the first attempt succeeded. If two files are found after the sender looked for one and before it waits, the first is taken from the list and
  overwritten by the second; it is never sent (`C173_lost_violated`). With one file it returns false, but the path is set and the file is sent.
* C174: `file_size` throws in the handler of the timer if a pending file was removed, and nothing catches it (`C174_removed_violated`). If the size differs, the new size is not stored: unless another
  event comes, the file is checked forever and never found (`C174_grown_violated`). Outside the model: new files are not checked for an extension or the length of the name as existing ones are.
* C176: both layers share one queue, and the handler of a write goes on with the layer of that write. A message sent for TLS while a plain one is being written, such as the end of a session
  during the contact header, is written in plain text (`C176_layer_violated`).
* C179: the comment of `GetRecycledOrCreateNewUserData` says that data is from the bin if and only if it is not empty. A vector with memory but without elements is accepted too, and is found empty by the one who gets it (`C179_sign_violated`).
* C180: times before the year 2000, as of a clock that is not set, become times of DTN after it, with more than a second of nanoseconds (`C180_before_violated`).
