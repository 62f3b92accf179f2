{"id": "C01", "title": "SDNV encode/decode round trip", "statement": "Encoding any 64-bit (32-bit) unsigned value as an SDNV writes between 1 and 10 (5) bytes, exactly as many as the size query announces, and decoding those bytes, whatever bytes follow them in the buffer, gives back that value and reports exactly that many bytes consumed. If the output buffer is shorter than the encoding, the encoder reports 0.", "quantifier": "every value below 2^64 (2^32), every trailing byte string, every buffer size", "why_tests_cant": "2^64 values times all trailing contexts; boundary mistakes at one of nine length thresholds affect an unbounded set of inputs", "anchors": ["common/util/src/Sdnv.cpp: SdnvEncodeU64Classic, SdnvEncodeU32Classic, SdnvDecodeU64Classic, SdnvDecodeU32Classic, SdnvGetNumBytesRequiredToEncode"]}
{"id": "C02", "title": "SDNV decoder is safe and exact on arbitrary input", "statement": "On any byte buffer the SDNV decoder reports either failure or a value together with a consumed length that lies inside the buffer; the value is the big-endian base-128 number spelled by exactly the consumed bytes, with no silent wrap-around at 64 (32) bits; 'not enough bytes' is reported exactly when the buffer is shorter than the longest SDNV and every byte in it has the continuation bit; 'invalid' is reported only when no continuation of the buffer decodes.", "quantifier": "every byte string of every length", "why_tests_cant": "hostile wire input is unbounded; overflow only shows for particular 10-byte strings", "anchors": ["common/util/src/Sdnv.cpp: SdnvDecodeU64Classic, SdnvDecodeU32Classic"]}
{"id": "C03", "title": "Accelerated and portable SDNV code agree", "statement": "The hardware-accelerated SDNV encoders and decoders compute, for every value and every buffer, the same bytes, values, consumed lengths and error classes as the portable ones, so two HDTN builds interoperate.", "quantifier": "every value below 2^64 and every buffer of at least the length the accelerated routine requires", "why_tests_cant": "table-driven mask arithmetic over 2^64 (encode) and 2^128 (decode) inputs", "anchors": ["common/util/src/Sdnv.cpp: SdnvEncodeU64FastBufSize10, SdnvDecodeU64FastBufSize16, SdnvEncodeU32FastBufSize8, SdnvDecodeU32FastBufSize8"]}
{"id": "C04", "title": "Batch SDNV decode equals one-at-a-time decode", "statement": "Decoding an array of SDNVs in one call yields the same numbers, consumed length and error verdict as decoding them one after another; it never writes more values than asked for and never consumes past the buffer.", "quantifier": "every byte string, every requested count", "why_tests_cant": "interaction of batch boundaries with SDNV lengths is unbounded", "anchors": ["common/util/src/Sdnv.cpp: SdnvDecodeArrayU64Classic, SdnvDecodeArrayU64Fast"]}
{"id": "C05", "title": "CBOR unsigned integer round trip and minimality", "statement": "Encoding any 64-bit value as a CBOR unsigned integer produces the shortest CBOR head for it, of exactly the announced size, 0 if the buffer is too small, and decoding those bytes followed by anything returns the value and the same size. The decoder never consumes beyond the buffer and rejects heads of any other major type or with reserved length codes.", "quantifier": "every value below 2^64, every byte string, every buffer size", "why_tests_cant": "unbounded input space, four width boundaries, reserved codes", "anchors": ["common/util/src/CborUint.cpp: CborEncodeU64Classic, CborDecodeU64Classic, CborGetEncodingSizeU64"]}
{"id": "C06", "title": "CBOR integer arrays round trip", "statement": "Serialising a pair, or any list, of 64-bit integers as a CBOR array and deserialising it (with trailing bytes) returns the same list and the number of bytes written; definite-length input longer than the caller's maximum is rejected.", "quantifier": "every list of 64-bit values, every trailing byte string", "why_tests_cant": "unbounded list length and values", "anchors": ["common/util/src/CborUint.cpp: CborTwoUint64ArraySerialize, CborTwoUint64ArrayDeserialize, CborArbitrarySizeUint64ArraySerialize, CborArbitrarySizeUint64ArrayDeserialize"]}
{"id": "C07", "title": "Fragment set insertion is exact set union in canonical form", "statement": "Whatever sequence of byte ranges is inserted, the fragment set covers exactly the union of those ranges, stored as a strictly increasing list of disjoint ranges that do not even touch; so two insertion histories covering the same bytes give identical sets, whatever their order, overlap or duplication.", "quantifier": "every finite sequence of ranges (begin<=end<2^64-1), in every order", "why_tests_cant": "the number of overlap configurations grows without bound; order-independence quantifies over permutations", "anchors": ["common/util/src/FragmentSet.cpp: FragmentSet::InsertFragment", "common/util/include/FragmentSet.h: data_fragment_t::operator<"]}
{"id": "C08", "title": "Fragment set queries mean what they say", "statement": "ContainsFragmentEntirely answers yes exactly when every byte of the queried range has been inserted; DoesNotContainFragmentEntirely answers yes exactly when no byte of it has; the overlap queries answer yes exactly when a common byte exists.", "quantifier": "every reachable fragment set and every range", "why_tests_cant": "unbounded sets; off-by-one and abutting cases", "anchors": ["common/util/src/FragmentSet.cpp: ContainsFragmentEntirely, DoesNotContainFragmentEntirely, FragmentSetsHaveOverlap"]}
{"id": "C09", "title": "Fragment removal removes exactly the given range", "statement": "RemoveFragment leaves exactly the bytes that were covered and are not in the removed range.", "quantifier": "every reachable fragment set and every range", "why_tests_cant": "the failing configuration (a range that abuts an entry on its left) is easy to miss in examples", "anchors": ["common/util/src/FragmentSet.cpp: FragmentSet::RemoveFragment"]}
{"id": "C10", "title": "Gap computation is exact", "statement": "Given bounds and a fragment set, GetBoundsMinusFragments returns exactly the bytes inside the bounds that are not covered, as ordered, disjoint, non-empty, non-touching ranges.", "quantifier": "every reachable fragment set and every bounds", "why_tests_cant": "unbounded sets; edge conditions on both bounds", "anchors": ["common/util/src/FragmentSet.cpp: FragmentSet::GetBoundsMinusFragments"]}
{"id": "C11", "title": "LTP reports claim exactly what was received", "statement": "A report segment generated for a scope claims exactly the received bytes inside the scope: nothing that was not received, nothing received left out. Splitting a long report into several keeps the union of claims and tiles the scope, and no piece has more claims than the limit.", "quantifier": "every reception history, every scope, every positive claim limit", "why_tests_cant": "quantifies over all sets of received ranges and all scopes", "anchors": ["common/ltp/src/LtpFragmentSet.cpp: PopulateReportSegment, SplitReportSegment"]}
{"id": "C12", "title": "LTP sender bookkeeping from reports is exact", "statement": "After processing any sequence of report segments the sender's acknowledged set is exactly the union of the claims, and the ranges it schedules for retransmission for a report's scope are exactly the bytes of that scope which no report has acknowledged.", "quantifier": "every sequence of report segments", "why_tests_cant": "histories of reports are unbounded", "anchors": ["common/ltp/src/LtpFragmentSet.cpp: AddReportSegmentToFragmentSet, AddReportSegmentToFragmentSetNeedingResent", "common/ltp/src/LtpSessionSender.cpp: ReportSegmentReceivedCallback"]}
{"id": "C13", "title": "LTP red-part delivery: exact, complete, once", "statement": "However the red segments of a block are lost, duplicated, reordered, retransmitted with other segment boundaries or overlapped, the receiver delivers the red part to the client at most once, only when every byte of it has arrived and its end is known, and the delivered bytes equal the sender's red part; and it is delivered as soon as that is the case.", "quantifier": "every block, every arrival sequence of segments that are faithful pieces of it", "why_tests_cant": "arrival orders and segmentations are unbounded", "anchors": ["common/ltp/src/LtpSessionReceiver.cpp: DataSegmentReceivedCallback"]}
{"id": "C14", "title": "LTP receiver never writes outside its reassembly buffer", "statement": "For every received data segment, whatever its offset and length fields, the bytes are stored inside the session's buffer or the segment is refused.", "quantifier": "every 64-bit offset and length", "why_tests_cant": "the violating offsets are near 2^64", "anchors": ["common/ltp/src/LtpSessionReceiver.cpp: DataSegmentReceivedCallback", "common/ltp/src/Ltp.cpp: HandleReceivedChars"]}
{"id": "C15", "title": "LTP session and serial numbers", "statement": "Session numbers generated for new sessions are never mistaken for link-ping sessions, carry the engine index recoverably, and do not repeat while the incremental part has not wrapped.", "quantifier": "every random draw, every engine index, every history of generated numbers", "why_tests_cant": "the confusing values need a particular random draw (probability about 2^-29)", "anchors": ["common/ltp/src/LtpRandomNumberGenerator.cpp: GetRandomSession64, GetPingSession64, IsPingSession"]}
{"id": "C16", "title": "LTP first transmission covers the block exactly", "statement": "The first pass over a block emits segments that tile it: consecutive, non-empty, each at most the configured segment size, red before green; every byte is sent exactly once; the last red segment, and only it, is the end of the red part and a checkpoint, and the last segment of all is marked end of block.", "quantifier": "every block length, red length, segment size and checkpoint period", "why_tests_cant": "unbounded sizes; boundary when lengths are multiples of the segment size", "anchors": ["common/ltp/src/LtpSessionSender.cpp: NextFirstPassDataToSend"]}
{"id": "C17", "title": "LTP sender reports success only when everything is acknowledged", "statement": "The sender declares the red part delivered exactly when the claims it has received cover every byte of the red part; at most one completion is signalled.", "quantifier": "every sequence of report segments, honest or not", "why_tests_cant": "unbounded histories", "anchors": ["common/ltp/src/LtpSessionSender.cpp: ReportSegmentReceivedCallback"]}
{"id": "C18", "title": "LTP segment wire format round trip", "statement": "Every LTP segment generated (data, report, report-ack, cancel, cancel-ack, with or without extensions) is parsed back by a receiver to the same fields and payload, one callback per segment, and the parser returns to its initial state.", "quantifier": "every field value below 2^64, every non-empty payload, every non-empty list of fewer than 2^31 non-empty claims, up to 15 extensions per side", "why_tests_cant": "unbounded payloads, lists and 64-bit fields", "anchors": ["common/ltp/src/Ltp.cpp: HandleReceivedChars, GenerateLtpHeaderPlusDataSegmentMetadata, GenerateReportSegmentLtpPacket"]}
{"id": "C19", "title": "LTP parser does not depend on how bytes are chunked", "statement": "Feeding the LTP parser a byte stream in any chunks produces the same sequence of callbacks and the same verdict.", "quantifier": "every byte string and every way to split it", "why_tests_cant": "exponentially many splits; shortcuts in the parser take different paths", "anchors": ["common/ltp/src/Ltp.cpp: HandleReceivedChars, TryShortcutReadDataSegmentSdnvs"]}
{"id": "C20", "title": "LTP retransmission is bounded", "statement": "A checkpoint, report or cancel segment that is never answered is transmitted at most (max retries + 1) times, after which the session is cancelled exactly once with the retry-limit reason.", "quantifier": "every retry limit and every timer/acknowledgement history", "why_tests_cant": "schedules are unbounded", "anchors": ["common/ltp/src/LtpSessionSender.cpp: LtpCheckpointTimerExpiredCallback", "common/ltp/src/LtpSessionReceiver.cpp", "common/ltp/src/LtpEngine.cpp: CancelSegmentTimerExpiredCallback"]}
{"id": "C21", "title": "Closed LTP sessions are not recreated", "statement": "The recreation preventer answers yes for exactly the most recent N distinct sessions recorded in it.", "quantifier": "every history of recorded sessions, every capacity N>=1", "why_tests_cant": "ring wrap-around interacts with arbitrary histories", "anchors": ["common/ltp/src/LtpSessionRecreationPreventer.cpp: AddSession, ContainsSession"]}
{"id": "C22", "title": "Storage segment allocation is sound", "statement": "The disk-segment allocator never hands out a segment that is in use or outside the configured capacity, always hands out the lowest free one, reports full only when every segment is in use, and its used-count is exact.", "quantifier": "every capacity up to 64^6, every history of allocations and frees", "why_tests_cant": "histories are unbounded; the bitmap tree has six levels with propagation between them", "anchors": ["module/storage/src/MemoryManagerTreeArray.cpp: GetAndSetFirstFreeSegmentId, FreeSegmentId, IsSegmentFree, AllocateSegmentId"]}
{"id": "C23", "title": "Multi-segment allocation is all or nothing", "statement": "A request for n segments either returns n distinct previously free segments and marks exactly those used, or changes nothing and returns none; it fails only if fewer than n segments are free.", "quantifier": "every allocator state and every n", "why_tests_cant": "failure must be rolled back from any intermediate point", "anchors": ["module/storage/src/MemoryManagerTreeArray.cpp: AllocateSegments_ThreadSafe, FreeSegments_ThreadSafe"]}
{"id": "C24", "title": "The custody lookup table is a map", "statement": "The fixed-size hash map behaves as a finite map: a value is found exactly under the key it was inserted with until it is removed, re-inserting an existing key is refused and changes nothing, whatever the hash collisions.", "quantifier": "every history of insert, lookup, remove, clear", "why_tests_cant": "collision patterns and histories are unbounded", "anchors": ["module/storage/src/HashMap16BitFixedSize.cpp: Insert, GetValueAndRemove, GetValuePtr"]}
{"id": "C25", "title": "Bundles leave storage by priority, then deadline, then order", "statement": "A bundle taken for a set of destinations belongs to one of them, has the highest priority present among them, the earliest expiration among those, and is the next in queue order of that destination and expiration; none is taken exactly when none is waiting for those destinations.", "quantifier": "every catalog history and every destination set", "why_tests_cant": "histories and destination sets are unbounded", "anchors": ["module/storage/src/BundleStorageCatalog.cpp: PopEntryFromAwaitingSend, AddEntryToAwaitingSend"]}
{"id": "C26", "title": "The storage catalog neither loses nor duplicates bundles", "statement": "Every stored bundle is at any time either waiting to be sent or taken (in flight), never both, never listed twice; return puts it back at the head; remove makes it unknown; and the bundle and byte counters equal the catalog contents.", "quantifier": "every history of store, take, return, remove", "why_tests_cant": "unbounded histories", "anchors": ["module/storage/src/BundleStorageCatalog.cpp: CatalogIncomingBundleForStore, ReturnEntryToAwaitingSend, Remove"]}
{"id": "C27", "title": "Expired bundles are found exactly", "statement": "Asking for bundles expired at time t returns, without a limit, exactly the waiting bundles whose expiration is at or before t.", "quantifier": "every catalog state and time", "why_tests_cant": "unbounded states", "anchors": ["module/storage/src/BundleStorageCatalog.cpp: GetExpiredBundleIds"]}
{"id": "C28", "title": "What is stored on disk is what is read back", "statement": "A bundle written to the segmented store, of any size, and read back segment by segment equals the original, regardless of which segments were allocated and what other bundles were written, read or removed in between.", "quantifier": "every bundle content and size, every interleaving of other store operations", "why_tests_cant": "unbounded sizes and histories", "anchors": ["module/storage/src/BundleStorageManagerBase.cpp: Push, PushSegment, TopSegment, ReadAllSegments"]}
{"id": "C29", "title": "Restart restores exactly the stored bundles", "statement": "After a restart at any moment between operations, scanning the disk recovers exactly the bundles stored and not removed, with identical contents and segment chains; removed bundles never come back; the allocator afterwards regards exactly their segments as used.", "quantifier": "every history of store/remove operations and every restart point between operations", "why_tests_cant": "histories and stale disk contents are unbounded", "anchors": ["module/storage/src/BundleStorageManagerBase.cpp: RestoreFromDisk, RemoveReadBundleFromDisk, PushSegment"]}
{"id": "C30", "title": "A crash in the middle of a write does not lose other bundles", "statement": "If the process stops after any prefix of the disk writes of a store operation, a restart still recovers every bundle that had been completely stored before.", "quantifier": "every history and every crash point inside a store", "why_tests_cant": "crash points are between any two writes", "anchors": ["module/storage/src/BundleStorageManagerBase.cpp: RestoreFromDisk, PushSegment"]}
{"id": "C31", "title": "Custody identifiers are unique while in use", "statement": "A custody identifier handed out for a bundle is never one that is still in use by another stored bundle, whatever has been allocated to whichever source and freed before, including identifiers restored at start-up.", "quantifier": "every history of initial restores, allocations for any sources and frees of identifiers in use", "why_tests_cant": "unbounded histories; block reservation and freeing interact", "anchors": ["common/bpcodec/src/codec/CustodyIdAllocator.cpp: GetNextCustodyIdForNextHopCtebToSend, FreeCustodyId, ReserveNextCustodyIdBlock"]}
{"id": "C32", "title": "Custody timers fire exactly when due", "statement": "Polling for expired custody timers among available destinations returns an entry started for one of them that is due, earliest deadline first, and nothing exactly when none is due; each started timer is returned or cancelled at most once.", "quantifier": "every history of start, cancel and poll under a non-decreasing clock", "why_tests_cant": "unbounded histories", "anchors": ["module/storage/src/CustodyTimers.cpp"]}
{"id": "C33", "title": "Single-producer single-consumer ring is safe under every interleaving", "statement": "However the producer's and consumer's steps interleave, items are consumed in production order, none is lost or read twice, a slot being written is never the slot being read, and the ring never holds more than size-1 items.", "quantifier": "every capacity >= 2 and every interleaving of the two threads' atomic steps", "why_tests_cant": "interleavings are exponential and histories unbounded", "anchors": ["common/util/src/CircularIndexBufferSingleProducerSingleConsumerConfigurable.cpp"]}
{"id": "C34", "title": "Endpoint identifiers round trip", "statement": "Every ipn endpoint with non-zero node (and the null endpoint) serialised in BPv7 CBOR or BPv6 SDNV form is deserialised to itself with exact length accounting; decoding never reads beyond the buffer.", "quantifier": "every 64-bit node and service number, every trailing byte string", "why_tests_cant": "2^128 endpoints, arbitrary hostile input", "anchors": ["common/bpcodec/src/codec/Cbhe.cpp: cbhe_eid_t::SerializeBpv7, DeserializeBpv7, SerializeBpv6, DeserializeBpv6"]}
{"id": "C35", "title": "BPv7 primary block round trip", "statement": "A BPv7 primary block, with any flags, CRC type, fragment fields and endpoints, serialises to the announced number of bytes and deserialises to an equal block.", "quantifier": "every field value", "why_tests_cant": "unbounded field combinations", "anchors": ["common/bpcodec/src/codec/Bpv7CbhePrimaryBlock.cpp: SerializeBpv7, DeserializeBpv7, GetSerializationSize"]}
{"id": "C36", "title": "CRC protects BPv7 blocks", "statement": "A block whose CRC field does not equal the CRC of its other bytes is rejected; in particular any single corrupted byte after the CRC type of a CRC-protected primary or canonical block is rejected.", "quantifier": "every block and every corruption of one byte", "why_tests_cant": "all positions and all values", "anchors": ["common/bpcodec/src/codec/Bpv7Crc.cpp", "common/bpcodec/src/codec/Bpv7CanonicalBlock.cpp: DeserializeBpv7"]}
{"id": "C37", "title": "BPv7 canonical blocks round trip", "statement": "A canonical block with any type, number, flags, CRC type and data serialises to the announced size and deserialises to an equal block.", "quantifier": "every block content", "why_tests_cant": "unbounded data", "anchors": ["common/bpcodec/src/codec/Bpv7CanonicalBlock.cpp: SerializeBpv7, DeserializeBpv7"]}
{"id": "C38", "title": "BPv6 primary block round trip", "statement": "A BPv6 (CBHE) primary block whose fields fit the one-byte block length serialises and deserialises to itself, with exact length accounting; blocks that do not fit are refused.", "quantifier": "every field value", "why_tests_cant": "2^64 per field; block-length limit at 127", "anchors": ["common/bpcodec/src/codec/Bpv6CbhePrimaryBlock.cpp: SerializeBpv6, DeserializeBpv6, GetSerializationSize"]}
{"id": "C39", "title": "BPv6 fragmentation tiles the payload and reassembly restores it", "statement": "Fragmenting a bundle yields fragments no larger than asked, whose offsets and payloads tile the original payload; reassembling those fragments in any order, with duplicates, returns the original payload.", "quantifier": "every payload, fragment size, arrival order", "why_tests_cant": "unbounded sizes and orders", "anchors": ["common/bpcodec/src/codec/Bpv6Fragment.cpp: Bpv6Fragmenter::Fragment, AssemblePayload", "common/bpcodec/src/codec/Bpv6FragmentManager.cpp"]}
{"id": "C40", "title": "Incomplete fragments are never reassembled", "statement": "Reassembly succeeds only if the supplied fragments together cover every byte of the application data unit.", "quantifier": "every list of fragments", "why_tests_cant": "the accepted-but-incomplete lists are those whose union is one range", "anchors": ["common/bpcodec/src/codec/Bpv6Fragment.cpp: AssemblePayload"]}
{"id": "C41", "title": "Aggregate custody signals round trip", "statement": "Any non-empty set of custody identifiers serialised as an aggregate custody signal is decoded to the same set, with exact length accounting.", "quantifier": "every set of identifiers below 2^64-1", "why_tests_cant": "sets are unbounded", "anchors": ["common/bpcodec/src/codec/Bpv6AdministrativeRecords.cpp: SerializeFills, DeserializeFills, GetFillSerializedSize"]}
{"id": "C42", "title": "Administrative bundles from one node have distinct identities", "statement": "Two custody signals or status reports generated by the same manager never carry the same (source, creation time, sequence number).", "quantifier": "every history of generated records and every clock behaviour", "why_tests_cant": "collisions appear only for records generated within the same second", "anchors": ["common/bpcodec/src/codec/CustodyTransferManager.cpp: SetCreationAndSequence"]}
{"id": "C43", "title": "TCPCLv3 stream parsing is independent of TCP segmentation", "statement": "Feeding the TCPCLv3 receiver the same byte stream in different chunks yields the same messages; in particular the bundle size limit is enforced whatever the chunking.", "quantifier": "every byte stream and every split", "why_tests_cant": "splits are exponential; an optimised path is taken only for large chunks", "anchors": ["common/tcpcl/src/Tcpcl.cpp: HandleReceivedChars"]}
{"id": "C44", "title": "TCPCLv3 messages round trip", "statement": "Every generated TCPCLv3 message is parsed by the peer into one callback with the same fields, for non-empty contents.", "quantifier": "every field value and contents", "why_tests_cant": "unbounded contents", "anchors": ["common/tcpcl/src/Tcpcl.cpp: GenerateDataSegment, GenerateContactHeader, HandleReceivedChars"]}
{"id": "C45", "title": "TCPCLv4 stream parsing is independent of TCP segmentation", "statement": "Feeding the TCPCLv4 receiver the same byte stream in different chunks yields the same sequence of messages and the same parser state.", "quantifier": "every byte stream and every split", "why_tests_cant": "splits are exponential; several optimised multi-byte reads", "anchors": ["common/tcpcl/src/TcpclV4.cpp: HandleReceivedChars"]}
{"id": "C46", "title": "TCPCLv4 messages round trip", "statement": "Every generated TCPCLv4 message is parsed by the peer into one callback with the same fields; data segments that are empty or larger than the limit are refused.", "quantifier": "every field value, contents and extension list", "why_tests_cant": "unbounded contents", "anchors": ["common/tcpcl/src/TcpclV4.cpp: Generate*, HandleReceivedChars"]}
{"id": "C47", "title": "Rate limiting bound", "statement": "Over any period the token-bucket limiter lets through at most the configured burst plus rate times elapsed time plus one over-draft request, and a request is refused only while the account is negative.", "quantifier": "every sequence of time steps and requests", "why_tests_cant": "unbounded histories", "anchors": ["common/util/src/TokenRateLimiter.cpp"]}
{"id": "C48", "title": "Bundles are not considered expired before their lifetime ends", "statement": "The expiration time computed for a bundle is creation time plus lifetime; a bundle with a longer lifetime never expires earlier.", "quantifier": "every creation time and lifetime below 2^64", "why_tests_cant": "wrap-around happens only for huge lifetimes", "anchors": ["common/bpcodec/src/codec/Bpv7CbhePrimaryBlock.cpp: GetExpirationSeconds", "common/bpcodec/src/codec/Bpv6CbhePrimaryBlock.cpp: GetExpirationSeconds"]}
{"id": "C49", "title": "Every stored bundle has a valid priority class", "statement": "The priority extracted from any accepted bundle selects one of the catalog's queues.", "quantifier": "every flag word accepted from the network", "why_tests_cant": "the reserved priority value is legal on the wire", "anchors": ["common/bpcodec/src/codec/Bpv6CbhePrimaryBlock.cpp: GetPriority", "module/storage/src/CatalogEntry.cpp: GetPriorityIndex", "module/storage/src/BundleStorageCatalog.cpp: AddEntryToAwaitingSend"]}
{"id": "C50", "title": "The send queue is a queue", "statement": "The singly linked queue used by the catalog behaves as a list with push at both ends, pop at the front and removal by key, after any history.", "quantifier": "every history of operations", "why_tests_cant": "the cached last-element pointer must be right after every history", "anchors": ["common/util/include/ForwardListQueue.h"]}
{"id": "C51", "title": "Hardware and software checksums agree", "statement": "The CRC-32C computed with the processor's CRC instruction equals the one computed by the table-free software routine for every buffer, whatever its length and wherever it lies in memory.", "quantifier": "every byte string and every start address", "why_tests_cant": "the hardware path splits the buffer by address and length into words, half words and bytes; a node compiled without the instruction must accept what a node compiled with it sends", "anchors": ["common/bpcodec/src/codec/Bpv7Crc.cpp: Crc32C_Unaligned_Hardware, Crc32C_Unaligned_Software"]}
{"id": "C52", "title": "BPv7 extension blocks survive the wire", "statement": "A previous node, bundle age, hop count or priority block is written into any memory as a canonical block that decodes to the same content, and the in-place update of a hop count yields a block with the new content, the same length and a valid CRC, or is refused.", "quantifier": "every content, block number, flags, CRC type and previous content of the memory", "why_tests_cant": "encodings change length at several values, so that in-place updates work or not depending on the numbers", "anchors": ["common/bpcodec/src/codec/Bpv7ExtensionBlocks.cpp", "common/bpcodec/src/codec/Bpv7CanonicalBlock.cpp: RecomputeCrcAfterDataModification"]}
{"id": "C53", "title": "ipn URIs survive text", "statement": "The text of an ipn endpoint parses back to the same node and service numbers, with the wildcard service recognised exactly when it is '*', the null-terminated form is found by its first null byte and fits the length computed for it, and the parser accepts exactly the texts ipn:<number>.<number> with numbers below 2^64.", "quantifier": "every node and service number and every text", "why_tests_cant": "numbers of every length up to twenty digits, every text, including signs, leading zeros and several dots", "anchors": ["common/util/src/Uri.cpp: GetIpnUriString, WriteIpnUriCstring, ParseIpnUriString, ParseIpnUriCstring, GetStringLengthOfUint"]}
{"id": "C54", "title": "BPv6 canonical and extension blocks survive the wire", "statement": "A BPv6 canonical block is decoded from exactly the byte strings that spell type, flags, length and that many data bytes; a custody transfer, previous hop, bundle age or metadata block is written with the size announced and reads back with the same content.", "quantifier": "every block, every content and every byte string", "why_tests_cant": "SDNV lengths vary with every field, and the extension readers have their own length limits", "anchors": ["common/bpcodec/src/codec/Bpv6CanonicalBlock.cpp", "common/bpcodec/src/codec/Bpv6ExtensionBlocks.cpp", "common/bpcodec/src/codec/Bpv6MetadataExtensionBlock.cpp"]}
{"id": "C55", "title": "BPv6 status reports and custody signals survive the wire", "statement": "A status report or custody signal is written with the size announced and reads back as the same record, and the readers accept exactly the byte strings laid out as RFC 5050 prescribes, with every optional time present exactly when its flag is set.", "quantifier": "every report, every combination of flags, every endpoint text and every byte string", "why_tests_cant": "2^7 flag combinations times all SDNV lengths and texts", "anchors": ["common/bpcodec/src/codec/Bpv6AdministrativeRecords.cpp", "common/util/src/TimestampUtil.cpp"]}
{"id": "C56", "title": "BPv6 bundles survive loading, editing and rendering", "statement": "A BPv6 bundle loads exactly if its bytes are a primary block followed by well-formed blocks of which the last, and only the last, is marked; rendering an unchanged view gives the same bytes, and rendering an edited one gives bytes of the announced size that load as the edited bundle, with the last block marked.", "quantifier": "every byte string, every view and every set of changed, added and deleted blocks", "why_tests_cant": "unbounded number and combination of blocks and edits", "anchors": ["common/bpcodec/src/codec/BundleViewV6.cpp: Load, LoadBundle, Render, GetSerializationSize"]}
{"id": "C57", "title": "LTP reports tell the truth", "statement": "Every report segment the receiver sends is well formed (non-empty scope, ordered disjoint claims inside it), has at most the configured number of claims, and claims only bytes that have arrived; for the segments of one block it claims exactly the bytes of its scope that had arrived when it was made.", "quantifier": "every configuration and every history of segments, acknowledgements and timer expiries", "why_tests_cant": "arbitrary overlaps and orders of segments, and claim sets of any size split over several reports", "anchors": ["common/ltp/src/LtpSessionReceiver.cpp: HandleGenerateAndSendReportSegment, LtpDelaySendReportSegmentTimerExpiredCallback", "common/ltp/src/LtpFragmentSet.cpp: PopulateReportSegment, SplitReportSegment"]}
{"id": "C58", "title": "LTP checkpoints are answered", "statement": "A new checkpoint that arrives before the red part is complete is answered: once its delay has passed, reports carrying its serial number are sent, whose scopes tile the stretch up to the end of the checkpoint.", "quantifier": "every block, every history of segments and every new checkpoint", "why_tests_cant": "depends on the whole history of reports sent and held back", "anchors": ["common/ltp/src/LtpSessionReceiver.cpp: DataSegmentReceivedCallback, LtpDelaySendReportSegmentTimerExpiredCallback, HandleGenerateAndSendReportSegment"]}
{"id": "C59", "title": "An LTP session that closes normally is finished", "statement": "When a receiving session asks to be deleted without a cancellation, the red part has been delivered and every report sent has been acknowledged.", "quantifier": "every block and every history of segments, acknowledgements and timer expiries", "why_tests_cant": "orders of red and green segments and acknowledgements are unbounded", "anchors": ["common/ltp/src/LtpSessionReceiver.cpp: ReportAcknowledgementSegmentReceivedCallback, DataSegmentReceivedCallback"]}
{"id": "C60", "title": "LTP sends again exactly what is missing", "statement": "After a report that claims something new, the sending session sends again exactly those bytes of the report's scope that no report has claimed, once each, after what was already waiting, and ends them with a checkpoint that names the report; with delayed retransmission the same holds for the scopes of all reports gathered during the delay, less everything claimed in the meantime. A report that claims nothing new causes nothing to be sent again.", "quantifier": "every block, packet size and history of fair reports, timer expiries and send opportunities", "why_tests_cant": "the missing bytes are an arbitrary set and depend on the whole history of claims", "anchors": ["common/ltp/src/LtpSessionSender.cpp: ReportSegmentReceivedCallback, ResendDataFromReport, LtpDelaySendDataSegmentsTimerExpiredCallback, NextTimeCriticalDataToSend"]}
{"id": "C61", "title": "LTP over a bad network delivers the red part or nothing", "statement": "With a sending and a receiving session joined by a network that loses, delays, reorders and repeats segments, neither session ever fails, the receiver delivers at most once and nothing but the red part, and when the sender reports success the receiver has delivered it.", "quantifier": "every block, settings, and every order of sending, losing, repeating and delivering segments and of timer expiries", "why_tests_cant": "the network's behaviour is an unbounded choice at every step", "anchors": ["common/ltp/src/LtpSessionSender.cpp: LtpSessionSender", "common/ltp/src/LtpSessionReceiver.cpp: LtpSessionReceiver"]}
{"id": "C62", "title": "A delivered LTP red part can be acknowledged", "statement": "Once the receiver has delivered the red part, and as long as neither session has given up, there is a continuation in which the sender learns this and reports success.", "quantifier": "every reachable state of the two sessions and the network between them", "why_tests_cant": "it says something about all continuations of all histories", "anchors": ["common/ltp/src/LtpSessionReceiver.cpp: DataSegmentReceivedCallback", "common/ltp/src/LtpSessionSender.cpp: ReportSegmentReceivedCallback"]}
{"id": "C63", "title": "Every LTP link ping ends with one report of the link's state", "statement": "Each ping is sent at least once and at most once more than the retry limit, and ends with exactly one report to the user: link up if it is acknowledged, link down after the last retransmission is not. No two pings go on at the same time, and nothing but a ping produces such a report.", "quantifier": "every retry limit, and every order of pings, cancellations, acknowledgements and timer expiries", "why_tests_cant": "histories of pings, losses and cancellations are unbounded", "anchors": ["common/ltp/src/LtpEngine.cpp: OnHousekeeping_TimerExpired", "common/ltp/src/LtpEngine.cpp: CancelSegmentTimerExpiredCallback", "common/ltp/src/LtpEngine.cpp: CancelAcknowledgementSegmentReceivedCallback"]}
{"id": "C64", "title": "LTP timers call back exactly once and in time", "statement": "A timer that is started calls back exactly once unless it is deleted before: not before its time is over, and as soon as it is over. A deleted timer never calls back, and no timer is lost.", "quantifier": "every history of starting, deleting and adjusting any number of timers, also from within callbacks, and of runs of the operating system timer's handler", "why_tests_cant": "interleavings of timer operations and expiries are unbounded", "anchors": ["common/ltp/src/LtpTimerManager.cpp: StartTimer", "common/ltp/src/LtpTimerManager.cpp: DeleteTimer", "common/ltp/src/LtpTimerManager.cpp: OnTimerExpired", "common/ltp/src/LtpTimerManager.cpp: AdjustRunningTimers"]}
{"id": "C65", "title": "Storage segments are neither shared nor leaked", "statement": "No disk segment belongs to two stored bundles or twice to one. Between calls a segment is free exactly when no stored bundle occupies it, and a bundle is refused exactly when it is empty or there are too few free segments for it.", "quantifier": "every history of storing, taking, returning, reading and removing bundles and of restarts, with every interleaving of the disk threads", "why_tests_cant": "a leak or a double use shows only after particular unbounded histories", "anchors": ["module/storage/src/BundleStorageManagerBase.cpp: Push, PushSegment, PushAllSegments, RemoveBundleFromDisk, RestoreFromDisk", "module/storage/src/MemoryManagerTreeArray.cpp"]}
{"id": "C66", "title": "Custody is accepted, refused and signalled as announced", "statement": "A bundle given to the custody manager is rejected exactly when it is malformed. Otherwise its previous custodian is told the outcome exactly once: at once with a custody signal that names the bundle, or, if both sides use custody identifiers, by adding the received identifier to the pending ones of that custodian and outcome. After acceptance the bundle names this node as custodian, with one custody block that the next hop finds valid; after refusal it is unchanged but for an invalid custody block; nothing else in it changes.", "quantifier": "every bundle, outcome, identifier and state reached by any history of calls", "why_tests_cant": "bundles, custody blocks and histories are unbounded", "anchors": ["common/bpcodec/src/codec/CustodyTransferManager.cpp: ProcessCustodyOfBundle, GetCustodyInfo, UpdateBundleCustodyFields, GenerateCustodySignal"]}
{"id": "C67", "title": "Aggregate custody signals lose and invent nothing", "statement": "The custody identifiers owed to a custodian with an outcome are, at any time, exactly those pending and those in aggregate signals already sent to it. Sending everything makes one signal per custodian and outcome with exactly its pending identifiers, and leaves nothing pending.", "quantifier": "every history of received bundles and sending", "why_tests_cant": "identifier sets and histories are unbounded; losing one shows only after particular histories", "anchors": ["common/bpcodec/src/codec/CustodyTransferManager.cpp: GenerateAllAcsBundlesAndClear, GenerateAcsBundle, GenerateCustodySignal", "module/storage/src/ZmqStorageInterface.cpp: ThreadFunc"]}
{"id": "C68", "title": "Custody bundles are released only when the next hop has them", "statement": "A custodian frees an identifier, or removes a bundle, on arrival of a signal only if the next hop accepted custody of that bundle or refused it because it has it already; and it frees each of these when the signals arrive.", "quantifier": "every history at the next hop, every signal it generates, every bundle", "why_tests_cant": "end to end over unbounded histories of two nodes", "anchors": ["module/storage/src/ZmqStorageInterface.cpp: ProcessAdminRecord, IsAdminForThisNode", "common/bpcodec/src/codec/CustodyTransferManager.cpp: GenerateAcsBundle, GenerateCustodySignalBundle"]}
{"id": "C69", "title": "TCPCLv4 links deliver what is forwarded", "statement": "Between two TCPCLv4 entities of this code with settings that suit each other and without TLS: the bundles delivered at one side are, at all times, the first of the non-empty bundles that Forward accepted at the other side, unchanged, in order, each exactly once; once everything has been written and read they are all of them; and from every state that can be reached everything can still be written and read.", "quantifier": "all pairs of suitable settings, all applications on both sides, all schedules of calls, writes, timers and reads, all divisions of the byte streams into reads", "why_tests_cant": "Deliveries depend on the interleaving of two event loops, on where the stream is cut and on the sizes of bundles and segments; there are unboundedly many.", "anchors": ["common/tcpcl/src/TcpclV4BidirectionalLink.cpp: BaseClass_Forward, BaseClass_DataSegmentCallback, BaseClass_ContactHeaderCallback, BaseClass_SessionInitCallback", "common/tcpcl/src/TcpclV4.cpp: HandleReceivedChars"]}
{"id": "C70", "title": "TCPCLv4 bundles are reported as sent exactly once, after delivery", "statement": "The success callback of a TCPCLv4 link is called for accepted bundles in order, each at most once, and only when the peer has acknowledged every segment up to the last with its flags, transfer ID and length; between two entities of this code only after the bundle was delivered; and every accepted bundle is reported in the end, as sent or as failed.", "quantifier": "all histories of forwarded bundles, all schedules, all messages of any peer", "why_tests_cant": "Acknowledgements interleave with new transfers, and any peer can send any of them at any time.", "anchors": ["common/tcpcl/src/TcpclV4BidirectionalLink.cpp: BaseClass_AckCallback, BaseClass_Forward, BaseClass_BundleRefusalCallback, BaseClass_SessionInitCallback"]}
{"id": "C71", "title": "TCPCLv4 links accept what fits", "statement": "On an established session Forward accepts every non-empty bundle that is not larger than what the peer takes while fewer than the maximum number of bundles is outstanding; it refuses bundles larger than what the peer takes; and a bundle that is refused leaves no trace.", "quantifier": "all histories, bundle sizes and settings", "why_tests_cant": "The queue of expected acknowledgements must have room for every combination of bundle sizes and acknowledgements underway.", "anchors": ["common/tcpcl/src/TcpclV4BidirectionalLink.cpp: BaseClass_Forward, BaseClass_SessionInitCallback"]}
{"id": "C72", "title": "TCPCLv4 receivers deliver the transfers of any peer", "statement": "Whatever messages a peer sends, the bundles delivered are the contents of its transfers, in order, each once; every segment is acknowledged with its flags, its transfer ID and the number of bytes of the transfer received so far; transfers are not mixed, and none is larger than the transfer MRU that was announced.", "quantifier": "all states of the link and all sequences of messages", "why_tests_cant": "Any peer can send any sequence of messages.", "anchors": ["common/tcpcl/src/TcpclV4BidirectionalLink.cpp: BaseClass_DataSegmentCallback"]}
{"id": "C73", "title": "TCPCLv4 sessions are set up as configured, and no peer can end the process", "statement": "A session is established exactly with a peer whose name is an ipn name with service number 0 and the expected node; it uses the smaller keep-alive interval (none when either wants none) and segments no larger than the peer takes; otherwise it is terminated as a contact failure. Bundles are delivered only on established sessions that meet the TLS requirement. No message of a peer ends the process.", "quantifier": "all settings, all session initialisations and all messages of any peer, all schedules", "why_tests_cant": "The values in the messages of a peer, and their order, are arbitrary.", "anchors": ["common/tcpcl/src/TcpclV4BidirectionalLink.cpp: BaseClass_SessionInitCallback, BaseClass_ContactHeaderCallback, BaseClass_AckCallback, constructor"]}
{"id": "C74", "title": "BPv7 administrative records survive the wire", "statement": "A BPv7 administrative record (bundle status report or encapsulated bundle) is written into a payload block as its RFC encoding, in exactly the announced number of bytes; it is read back as the same record; what is read is a record as the RFC has it; two records compare equal exactly if they carry the same.", "quantifier": "all records, block members, contents of the output memory, and all byte strings handed to the reader", "why_tests_cant": "Statuses, optional times, fragment numbers, integer widths and definite or indefinite arrays combine freely, and any node can send any bytes.", "anchors": ["common/bpcodec/src/codec/Bpv7AdministrativeRecords.cpp: Bpv7AdministrativeRecord::SerializeBpv7, Virtual_DeserializeExtensionBlockDataBpv7, Bpv7AdministrativeRecordContentBundleStatusReport::SerializeBpv7/DeserializeBpv7/IsEqual, Bpv7AdministrativeRecordContentBibePduMessage"]}
{"id": "C75", "title": "BPv7 security blocks survive the wire", "statement": "An integrity or confidentiality block is written as the abstract security block of RFC 9172 in exactly the announced number of bytes and read back with the same content; what is read is such a block; reading looks at nothing outside the memory that was received, whatever was sent; two blocks compare equal exactly if they have the same content.", "quantifier": "all security blocks, block members and contents of the output memory; all byte strings handed to the reader, whatever the block object held and whatever follows the block in memory", "why_tests_cant": "Targets, parameters and results are lists of any length, the memory behind the block is arbitrary, and any node can send any bytes.", "anchors": ["common/bpcodec/src/codec/Bpv7BpSecExtensionBlocks.cpp: Bpv7AbstractSecurityBlock::SerializeBpv7, GetCanonicalBlockTypeSpecificDataSerializationSize, Virtual_DeserializeExtensionBlockDataBpv7, SerializeIdValuePairsVecBpv7, DeserializeIdValuePairsVecBpv7, DeserializeIdValuePairBpv7, operator=="]}
{"id": "C76", "title": "Security parameters and results are kept apart", "statement": "Setting a security parameter replaces its value or adds it, and changes no other parameter; it fails exactly if the parameter has a value of the other kind; reading a parameter returns the value set last; the scope flags default to 7; appended results are returned in order, by identifier.", "quantifier": "all lists of parameters and results, identifiers and values", "why_tests_cant": "It must hold after every history of calls and reads of received blocks.", "anchors": ["common/bpcodec/src/codec/Bpv7BpSecExtensionBlocks.cpp: Protected_AddOrUpdateUintValueSecurityParameter, Protected_AddAndGetByteStringParamPtr, Protected_GetUintSecurityParameter, Protected_GetByteStringParamPtr, Protected_AppendAndGetSecurityResultByteStringPtr, Protected_GetAllSecurityResultsByteStringPtrs, GetSecurityParameterScope"]}
{"id": "C77", "title": "BPv7 bundles survive loading, editing and rendering", "statement": "A bundle loads exactly if it is a well-formed sequence of a primary block that is no fragment and canonical blocks that ends with the only payload block, and the view shows exactly its blocks and contents. Unchanged, it is rendered byte for byte as it was. After changes it is rendered in the announced size and loads again with the blocks that were not deleted, in order, with their contents. Rendering in place gives the same result. No memory outside the given buffers is read or written, and nothing of a bundle loaded before shows.", "quantifier": "all byte strings and memory behind them, all views, changes, buffers and paddings", "why_tests_cant": "Bundles have any number of blocks of any content and any edits; received bytes are arbitrary.", "anchors": ["common/bpcodec/src/codec/BundleViewV7.cpp: Load, LoadBundle, CopyAndLoadBundle, Render, RenderInPlace, GetSerializationSize, AppendMoveCanonicalBlock, PrependMoveCanonicalBlock"]}
{"id": "C78", "title": "BPv7 block numbers stay unique", "statement": "The number offered for a new block is one that no block of the bundle has, and neither 0 nor 1; after loading it is the smallest such number. If new blocks take the number offered, the numbers of a bundle stay distinct.", "quantifier": "all bundles and all histories of adding, changing, deleting and rendering", "why_tests_cant": "It is an invariant of every history of calls, with a bit mask for numbers up to 63 and a search above.", "anchors": ["common/bpcodec/src/codec/BundleViewV7.cpp: GetNextFreeCanonicalBlockNumber, ReserveBlockNumber, FreeBlockNumber, DeleteAllCanonicalBlocksByType, InsertMoveCanonicalBlockAfterBlockNumber, InsertMoveCanonicalBlockBeforeBlockNumber, Render"]}
{"id": "C79", "title": "The route search finds the earliest delivery", "statement": "For every contact plan with light times that are not negative and times in range: the search ends; it finds a route exactly when the destination can be reached with the contacts of the plan from now on, and then the route is one a bundle can follow, it visits no node twice, and no other way of following the contacts gets to the destination earlier. The next hop given to the router is the first node of such a route; a node has no route to itself.", "quantifier": "all contact plans, sources, destinations and present times", "why_tests_cant": "The plans and the journeys through them are unbounded; optimality compares with every journey.", "anchors": ["common/cgr/src/libcgr.cpp: dijkstra, Contact, Route", "module/router/src/router.cpp: ComputeOptimalRoute"]}
{"id": "C80", "title": "Multigraph routing finds the earliest delivery", "statement": "Multigraph routing gives, like the plain search, a route exactly when there is one, and one that delivers earliest.", "quantifier": "all contact plans, sources, destinations and start times", "why_tests_cant": "The plans and the journeys through them are unbounded; the search relies on sorted lists and binary search.", "anchors": ["common/cgr/src/libcgr.cpp: cmr_dijkstra, ContactMultigraph, contact_search_index, contact_search_predecessor, CompareArrivals", "module/router/src/router.cpp: ComputeOptimalRoute"]}
{"id": "C81", "title": "The figures of a route are right", "statement": "A route that was found names its end points, the start of its first contact, the earliest end of its contacts and the time at which a bundle that sets out now is delivered.", "quantifier": "all contact plans, sources, destinations and present times", "why_tests_cant": "Routes have any number of contacts; the figures are folds over them.", "anchors": ["common/cgr/src/libcgr.cpp: Route::append, Route::refresh_metrics, dijkstra"]}
{"id": "C82", "title": "Bundles over a serial line arrive as they were sent", "statement": "Whatever bytes a bundle has, the SLIP encoder writes the packet of RFC 1055 and no two bundles have the same packet. A receiver in any state, after any noise, puts out exactly the bundles whose packets come in then, in order, except for empty ones and ones over its size limit, however the bytes are cut into reads, as long as its user keeps up with a ring of at least two slots; otherwise some are missing but none is altered, moved or doubled.", "quantifier": "all bundles, receiver states, noise, ways of cutting the stream and histories of the user", "why_tests_cant": "The contents, the noise before and the interleavings are unbounded.", "anchors": ["common/slip_over_uart/src/slip.c: SlipEncode, SlipEncodeChar", "common/slip_over_uart/include/slip.h: SlipDecodeChar_Inline", "common/slip_over_uart/src/UartInterface.cpp: SerialReceiveSomeHandler, PopCbThreadFunc, ResetRxStates"]}
{"id": "C83", "title": "Every bundle given to a serial interface is accounted for", "statement": "Every bundle that Forward takes is sent or is queued or fails; it is reported once, as sent after its packet is written or as failed with its contents, in the order of the calls; the count of bundles without acknowledgement is that of the queue; the bundles the other end puts out are those reported sent.", "quantifier": "all histories of calls, posted work, finished writes and failed writes", "why_tests_cant": "The interleavings of calls, writes and failures are unbounded.", "anchors": ["common/slip_over_uart/src/UartInterface.cpp: Forward, TrySendBundleIfAvailable_NotThreadSafe, HandleSerialSend, EmptySendQueueOnFailure, DoFailedBundleCallback, GetTotalBundlesUnacked"]}
{"id": "C84", "title": "Bundles over an STCP connection arrive as they were sent", "statement": "However the stream is cut into pieces and whatever the schedule of the threads, an STCP sink with a ring of at least two slots puts out the bundles of the data units on the connection, in order, each once and unchanged, up to the first one over its limit; keepalives are skipped. What it puts out of a connection of an STCP source are the bundles written to this connection, all of them once everything has arrived (bundles that are not empty and have less than 4 GiB).", "quantifier": "all streams, pieces, schedules, and histories of the source with failures and reconnections", "why_tests_cant": "The streams, the ways to cut them and the interleavings are unbounded.", "anchors": ["common/stcp/src/StcpBundleSink.cpp: TryStartTcpReceive, HandleTcpReceiveIncomingBundleSize, HandleTcpReceiveBundleData, PopCbThreadFunc", "common/stcp/src/StcpBundleSource.cpp: Forward, GenerateDataUnitHeaderOnly, OnNeedToSendKeepAliveMessage_TimerExpired"]}
{"id": "C85", "title": "Every bundle given to an STCP source is accounted for", "statement": "Every bundle that Forward takes is queued, or was reported once: as sent when it has been written, or as failed with its contents; reports come in the order of the calls. After a failure and a reconnection the source takes and reports bundles as before.", "quantifier": "all histories of calls, keepalive timers, finished and failed writes, shutdowns and reconnections", "why_tests_cant": "The interleavings and the number of reconnections are unbounded.", "anchors": ["common/stcp/src/StcpBundleSource.cpp: Forward, HandleTcpSend, OnConnect, DoHandleSocketShutdown", "common/util/src/TcpAsyncSender.cpp: AsyncSend_NotThreadSafe, HandleTcpSend, DoFailedBundleCallback"]}
{"id": "C86", "title": "Every bundle given to a UDP source is accounted for", "statement": "The bundles that Forward takes are, in the order of the calls, those sent, those that failed and those still pending. Each one sent is reported as sent, once and in order, and goes out as one datagram with its bytes; each one that failed is reported as failed.", "quantifier": "all histories of calls in both forms, posted sends, timers, finished and failed sends, changes of the rate", "why_tests_cant": "The interleavings of calls, sends and timers are unbounded.", "anchors": ["common/udp/src/UdpBundleSource.cpp: Forward, HandlePostForUdpSendVecMessage, HandlePostForUdpSendZmqMessage, ProcessPacketSent, HandleUdpSendVecMessage, HandleUdpSendZmqMessage"]}
{"id": "C87", "title": "A UDP source keeps to its rate and sends what is queued", "statement": "In any period before a send, the bytes whose sending is started are at most one full bucket, one packet and the rate times the length of the period. Whenever a packet is queued the refresh timer runs and is due within one interval, and when it expires the queues are emptied unless the tokens are used up.", "quantifier": "all histories with a fixed rate, all rates, windows and refresh intervals", "why_tests_cant": "The bound holds for every period of every history.", "anchors": ["common/udp/src/UdpBundleSource.cpp: UpdateRate, TryRestartTokenRefreshTimer, OnTokenRefresh_TimerExpired", "common/util/src/TokenRateLimiter.cpp: AddTime, TakeTokens"]}
{"id": "C88", "title": "A UDP sink gives its user the datagrams as they came", "statement": "What the user is given and what waits in the ring are datagrams that arrived, unchanged and in order; a datagram is lost only while the ring is full, and then it is counted.", "quantifier": "all histories of datagrams and turns of the reader thread, all numbers of slots and sizes", "why_tests_cant": "The histories are unbounded.", "anchors": ["common/udp/src/UdpBundleSink.cpp: HandleUdpReceive, PopCbThreadFunc"]}
{"id": "C89", "title": "Initialization vectors are not used twice", "statement": "All initialization vectors that the objects of one process issue, short or long, are different, whatever the clock shows, as long as no object issues more than 100000 * 2^32 short and 100000 * 2^64 long ones.", "quantifier": "all histories of creating objects (on any number of threads) and asking them for vectors, all readings of the clock", "why_tests_cant": "A repetition appears only for particular readings of the clock and after astronomically many vectors.", "anchors": ["common/bpsec/src/InitializationVectors.cpp: InitializationVector12Byte, InitializationVector16Byte, InitializationVectorsForOneThread::Create, SerializeAndIncrement"]}
{"id": "C90", "title": "The BPSec policy for a bundle is found", "statement": "Creating a policy twice for the same URIs and role gives the same policy, for different ones different policies, and fails exactly for invalid URIs or roles. A search gives a policy whose URIs match the security source, the bundle source and the destination and whose role is the one asked for, the strictest first, and gives nothing only if no policy matches. A search with a cache gives the same as one without.", "quantifier": "all histories of creating policies, all texts as URIs, all searches", "why_tests_cant": "Whether a policy is found depends on all other policies that exist, and on the order of searches.", "anchors": ["common/bpsec/src/BpSecPolicyManager.cpp: Internal_AddPolicyFilterToThisFilter, CreateOrGetNewPolicy, Internal_GetPolicyFilterFromThisFilter, FindPolicy, FindPolicyWithCacheSupport"]}
{"id": "C91", "title": "BPSec policies are loaded as configured", "statement": "Loading succeeds exactly if each rule has a known role and service, allowed parameters, exactly one key and valid URIs, no two rules of a service are for the same URIs and role, and a policy that encrypts a block that it signs also encrypts the integrity block. A search then gives a policy with exactly the services and settings the rules ask for.", "quantifier": "all lists of rules", "why_tests_cant": "Rules interact: two rules may name one place, in any order.", "anchors": ["common/bpsec/src/BpSecPolicyManager.cpp: LoadFromConfig, BpSecPolicy::ValidateAndFinalize"]}
{"id": "C92", "title": "Encrypted blocks are decrypted to what they were", "statement": "Encrypting blocks of a bundle puts a confidentiality block with an unused number first, which names the targets and carries for each the AES-GCM tag of RFC 9173; the data of the targets are encrypted and nothing else changes, and the bundle can be loaded. A receiver with the key, wrapped or not, and a matching policy decrypts it without an error and gets back exactly the bundle as it was. If the bundle does not fit into the room before it, the call fails.", "quantifier": "all bundles, targets, keys, initialization vectors and scopes, all cryptographic functions that invert each other", "why_tests_cant": "Every byte of header, length and CRC depends on the sizes and encodings of all blocks.", "anchors": ["common/bpsec/src/BpSecBundleProcessor.cpp: TryEncryptBundle, TryDecryptBundleByIndividualBcb, AesGcmEncrypt, AesGcmDecrypt, AesWrapKey, AesUnwrapKey"]}
{"id": "C93", "title": "Signed blocks are verified", "statement": "Signing the primary block and other blocks of a bundle puts an integrity block with an unused number first, which carries for each target the HMAC of the plaintext of RFC 9173; nothing else changes, and the bundle can be loaded. A receiver with the key and a matching policy verifies it without an error and can remove the block, which gives back exactly the bundle as it was.", "quantifier": "all bundles, targets, keys and scopes, all cryptographic functions that invert each other", "why_tests_cant": "The signed text depends on the encodings of all blocks involved.", "anchors": ["common/bpsec/src/BpSecBundleProcessor.cpp: TryAddBundleIntegrity, TryVerifyBundleIntegrityByIndividualBib"]}
{"id": "C94", "title": "What is accepted is authentic", "statement": "If decrypting or verifying a security block reports no error, then the block has targets, each target is in the bundle, and the tag or HMAC that the block carries for it is the one of the target as it was received, under the key that the policy gives or that the block carries wrapped. A receiver that only verifies changes nothing; otherwise the targets are decrypted and the security block is marked for removal. No bundle makes the receiver read or write outside its memory.", "quantifier": "all bundles that can be loaded, made by anyone, all policies and keys", "why_tests_cant": "An attacker chooses the bundle.", "anchors": ["common/bpsec/src/BpSecBundleProcessor.cpp: TryDecryptBundleByIndividualBcb, TryVerifyBundleIntegrityByIndividualBib, AesGcmDecrypt, AesUnwrapKey"]}
{"id": "C95", "title": "Encrypted blocks at the nodes of a bundle's way", "statement": "A node whose policy makes it the acceptor of a confidentiality block passes the bundle on only if the payload, when it is a target, was authenticated and is decrypted; every other target is authenticated and decrypted or removed. Blocks that are not encrypted and are no security blocks are passed on unchanged or are removed. A node without a policy for the bundle that is not its destination passes it on unchanged. A policy that asks for confidentiality lets no unprotected bundle pass; after decryption no block is listed as encrypted that is not.", "quantifier": "all bundles that can be loaded, made by anyone, whose confidentiality blocks are not encrypted themselves; all policies, events and cryptographic functions", "why_tests_cant": "Several security blocks are processed one after the other in the same bundle, each with its own policy, errors and actions; that none undoes what another one established must hold for all combinations.", "anchors": ["common/bpsec/src/BpSecPolicyManager.cpp: BpSecPolicyManager::ProcessReceivedBundle", "common/bpsec/src/BpSecPolicyManager.cpp: DoFailureEvent", "common/bpsec/src/BpSecPolicyManager.cpp: DoFailureEventSopMissingAtAcceptor"]}
{"id": "C96", "title": "Failed security operations have the configured effect", "statement": "If operations of a security block fail, the bundle is dropped exactly if the configured actions for one of the errors say so, if none are configured, if the block to be removed is the payload block, or if an acceptor cannot decrypt the payload. Otherwise exactly the operations to be removed are taken out of the security block, exactly the targets to be removed are marked, and nothing else changes. If a policy says that a bundle with a failed integrity check is dropped, the HMACs of all targets of an integrity block in a bundle that is passed on are right.", "quantifier": "all bundles, security blocks, policies, event sets, roles and combinations of errors", "why_tests_cant": "Operations are removed from two parallel lists by index while the errors still refer to the original indices; any number of targets may fail, in any combination.", "anchors": ["common/bpsec/src/BpSecPolicyManager.cpp: DoFailureEvent", "common/bpsec/src/BpSecPolicyManager.cpp: RemoveSopByGreatestToLeastIndex", "common/bpsec/src/BpSecPolicyManager.cpp: RemoveSopTargetBlock", "common/bpsec/src/BpSecPolicyManager.cpp: BpSecPolicyManager::ProcessReceivedBundle"]}
{"id": "C97", "title": "Bundles are protected as the policy says, and arrive", "statement": "A bundle for whose endpoints there is no policy as security source is sent unchanged. With a policy, it is sent with one integrity block whose targets are exactly the blocks of the types configured for integrity, and one confidentiality block whose targets are exactly the blocks of the types configured for confidentiality, the new integrity block included, all of these encrypted under the next initialization vector; all other blocks are unchanged. Everyone can load the bundle. A node with the same policy as acceptor passes on the bundle that was given to the sender, byte for byte. If there is nothing to protect or no key, nothing is sent.", "quantifier": "all bundles without security blocks, all policies with any sets of types, keys and scopes, all cryptographic functions for which decryption inverts encryption, all states of the initialization vectors", "why_tests_cant": "Signing, encrypting the signature, loading, decrypting, verifying and rendering work on the same memory and block lists; that they invert each other must hold for all bundles, policies and sets of target types.", "anchors": ["common/bpsec/src/BpSecPolicyManager.cpp: BpSecPolicyManager::FindPolicyAndProcessOutgoingBundle", "common/bpsec/src/BpSecPolicyManager.cpp: BpSecPolicyManager::ProcessOutgoingBundle", "common/bpsec/src/BpSecPolicyManager.cpp: BpSecPolicyManager::PopulateTargetArraysForSecuritySource", "common/bpsec/src/BpSecPolicyManager.cpp: BpSecPolicyManager::ProcessReceivedBundle"]}
{"id": "C98", "title": "Forwarded bundles change only as a hop changes them", "statement": "A version 7 bundle that a node passes on leaves it for the same destination, can be loaded by every receiver, and is unchanged but for two things: its previous node block names this node (one with an unused number is added if there was none), and its hop count is one more. A bundle whose hop count would exceed its limit or 255, or with two such blocks, is dropped; so a bundle cannot go through more nodes than its limit says. At an acceptor of a security policy, what goes on is the bundle as it was before it was protected, changed in the same way.", "quantifier": "all bundles, all nodes, all chains of nodes of any length, all policies and lawful cryptographic functions for the part on acceptors", "why_tests_cant": "The two blocks are written back into the middle of a received buffer whose other blocks are kept as ranges of bytes; that all else survives must hold for every list of blocks and every change of length.", "anchors": ["module/ingress/src/receive.cpp: Ingress::Impl::ProcessPaddedData", "common/bpcodec/src/codec/BundleViewV7.cpp: BundleViewV7::RenderInPlace"]}
{"id": "C99", "title": "The node's own services: echo, ping and custody signals", "statement": "A version 7 bundle for the echo service goes back to its source: source and destination are exchanged, the echo service is the new source, and all else in the bundle is as for a bundle that is passed on. A bundle for the ping service goes nowhere and its payload is logged. An administrative record for the custody service is handed on as it came.", "quantifier": "all bundles, all nodes and service numbers", "why_tests_cant": "The primary block changes its length when the endpoints are exchanged; that every receiver can load the result with all blocks intact must hold for all endpoints and blocks.", "anchors": ["module/ingress/src/receive.cpp: Ingress::Impl::ProcessPaddedData"]}
{"id": "C100", "title": "The pipeline limits of an outduct", "statement": "For each outduct, the bundles that egress holds for it or that are on the way there never exceed maxNumberOfBundlesInPipeline in number, nor maxSumOfBundleBytesInPipeline in bytes; neither does what the outduct itself holds. The bundles on the way from ingress to the disk are at most five, and not more bytes than the largest bundle.", "quantifier": "all configurations, all interleavings of the threads of ingress, storage, egress and the outducts, all failures, link changes and route changes", "why_tests_cant": "Two modules each count half of a limit by themselves, by messages and answers that cross; that the sum never exceeds the limit must hold for every interleaving.", "anchors": ["module/ingress/src/receive.cpp: BundlePipelineAckingSet, Ingress::Impl::ProcessPaddedData", "module/storage/src/ZmqStorageInterface.cpp: DoSendBundles, OutductInfo_t", "module/egress/src/EgressAsync.cpp: ReadZmqThreadFunc"]}
{"id": "C101", "title": "The bound on memory", "statement": "All bundles in memory for an outduct, in the modules and in the queues between them, are limited by the limits of the outduct; the documentation says by maxSumOfBundleBytesInPipeline, plus the size of the largest bundle for the node.", "quantifier": "all configurations, all interleavings, all failures", "why_tests_cant": "The worst case needs several queues to be full at the same time.", "anchors": ["module/ingress/src/receive.cpp: Ingress::Impl::ProcessPaddedData (comment on the config file changes)", "module/storage/src/ZmqStorageInterface.cpp: OutductInfo_t::cutThroughQueue", "module/egress/src/EgressAsync.cpp: OnFailedBundleZmqSendCallback"]}
{"id": "C102", "title": "Which way a bundle goes", "statement": "A bundle that comes in goes directly to egress when its outduct's link is up, it asks for no custody, priority is not enforced and it fits into half of the outduct's limits beside the bundles that went this way and are not answered; else through storage without the disk when it fits into the other half; else to the disk. A bundle that asks for custody reaches egress only from the disk, and with enforceBundlePriority every bundle goes through storage.", "quantifier": "all bundles, all reachable states, all interleavings", "why_tests_cant": "The choice depends on counters that several threads change.", "anchors": ["module/ingress/src/receive.cpp: Ingress::Impl::ProcessPaddedData, BundlePipelineAckingSet::WaitForPipelineAvailabilityAndReserve"]}
{"id": "C103", "title": "No bundle disappears inside the node and none appears", "statement": "Every bundle that was accepted is, as often as it was accepted, delivered (released by a custody signal if it asks for custody), expired, lost or still held by a module; nothing is delivered that was not accepted. When nothing is under way it is on the disk or it is done with. No bundle is lost in a run in which no message between modules is lost, the disk can be written and storage answers in time, whatever links and outducts do.", "quantifier": "all runs, all interleavings, all failures of links, outducts and sending, equal bundles included", "why_tests_cant": "A bundle changes hands up to five times between threads, with several ways back; each way must keep it for every interleaving.", "anchors": ["module/ingress/src/receive.cpp: Ingress::Impl::ProcessPaddedData", "module/storage/src/ZmqStorageInterface.cpp: ThreadFunc, DoSendBundles, SetLinkDown, Write", "module/egress/src/EgressAsync.cpp: OnFailedBundleZmqSendCallback, OnSuccessfulBundleSendCallback"]}
{"id": "C104", "title": "Reservations are given back", "statement": "When nothing is under way, everything that was reserved for bundles in the pipelines of ingress and storage is free again, in number and bytes, and no bundle on the disk is taken to be at egress. No sequence of events makes a module use an outduct that does not exist.", "quantifier": "all runs, all interleavings, all failures", "why_tests_cant": "A reservation that is not given back on one of the ways a bundle can take shows only after many bundles, as a pipeline that is closed for ever.", "anchors": ["module/ingress/src/receive.cpp: BundlePipelineAckingSet::CompareAndPop_ThreadSafe", "module/storage/src/ZmqStorageInterface.cpp: OutductInfo_t, ThreadFunc"]}
{"id": "C105", "title": "What the modules know of links", "statement": "Ingress and storage take a link to be down exactly when the router or egress tells them so for this link; a bundle that has no outduct does not mark any link down. When a link goes down storage writes the bundles that waited for it to the disk in their order, and it sends to a link only while it takes it to be up.", "quantifier": "all states, all messages, all interleavings", "why_tests_cant": "The messages about links come from three sources in any order, also before the first message of egress.", "anchors": ["module/storage/src/ZmqStorageInterface.cpp: SetLinkDown, ThreadFunc", "module/ingress/src/receive.cpp: RouterEventHandler", "module/egress/src/EgressAsync.cpp: OnFailedBundleZmqSendCallback"]}
{"id": "C106", "title": "Strict priority", "statement": "With enforceBundlePriority, a bundle that is sent to a link has at least the priority of all bundles that wait in storage for this link.", "quantifier": "all contents of the disk and of the queues", "why_tests_cant": "Bundles wait in two places, a queue in memory and the disk; the order must hold for all contents of both.", "anchors": ["module/storage/src/ZmqStorageInterface.cpp: PrioritySend"]}
{"id": "C107", "title": "The disk and the queue take turns", "statement": "Without enforceBundlePriority, when both the first bundle of the queue and the first bundle on the disk for a link can be sent, two looks of storage at this link send one from the disk and one from the queue: neither starves.", "quantifier": "all states, anything that happens between the two looks", "why_tests_cant": "It is about pairs of steps with any other steps in between.", "anchors": ["module/storage/src/ZmqStorageInterface.cpp: DefaultSend"]}
{"id": "C108", "title": "What the router tells about links", "statement": "Ingress and storage were last told that a link is up exactly when its contact is on, egress last said that it works and its neighbour is not being left alone for lack of storage. They are told only news, and only about links that egress told of.", "quantifier": "all runs of handlers: contact plans, timers, link changes, API commands and reports of depleted storage in any order and at any times", "why_tests_cant": "Three conditions change independently of each other; each order of the changes must lead to the same messages.", "anchors": ["module/router/src/router.cpp: OutductInfo_t::IsUp, updateLinkState*, SendLinkUp, SendLinkDown, HandlePhysicalLinkStatusChange"]}
{"id": "C109", "title": "Links follow the contact plan", "statement": "After a contact plan was loaded, the link to a neighbour that works is up exactly during the contacts of this node with this neighbour in the plan.", "quantifier": "all contact plans, all times, all interleavings of timers and other handlers", "why_tests_cant": "It must hold for every plan, whatever its order, and at every time; timers and plans that are loaded meanwhile can cross.", "anchors": ["module/router/src/router.cpp: ProcessContacts, AddContact_NotThreadSafe, OnContactPlan_TimerExpired, TryRestartContactPlanTimer"]}
{"id": "C110", "title": "Routes follow the links", "statement": "When a link goes up, egress is told the best next hop for every destination of the plan, and none when there is no way: the first node on a way that arrives first without using a contact that is on now with a neighbour whose link is down. When a link goes down this happens for the destinations that were routed over it. Else nothing changes, and after a plan was loaded there are no routes until a link goes up.", "quantifier": "all contact plans, all histories", "why_tests_cant": "It combines the search for routes with lists of destinations per outduct that are kept over all changes.", "anchors": ["module/router/src/router.cpp: ComputeAllRoutes, ComputeOptimalRoutesForOutductIndex, FilterContactPlan, UpdateRouteState, SendRouteUpdate"]}
{"id": "C111", "title": "Failed contacts are avoided", "statement": "When the contact with a neighbour is on but its link is down, bundles are not routed to this neighbour if there is another way.", "quantifier": "all contact plans, all histories", "why_tests_cant": "A contact can fail before, at or after its start, and routes can have been computed at any time.", "anchors": ["module/router/src/router.cpp: OnContactPlan_TimerExpired, HandlePhysicalLinkStatusChange, FilterContactPlan", "CHANGELOG.md: Upon a failed contact"]}
{"id": "C112", "title": "Neighbours without storage are left alone for a time", "statement": "For neighborDepletedStorageDelaySeconds after a neighbour told that its storage is depleted, its link is not up; after that time it can be up again.", "quantifier": "all sequences of reports of all neighbours, all times of timers", "why_tests_cant": "Reports and one timer for all of them interleave.", "anchors": ["module/router/src/router.cpp: HandleNodeWithDepletedStorage, AddStorageExpirationTime, OnStorageFull_TimerExpired, TryRestartStorageTimer"]}
{"id": "C113", "title": "Egress knows the schedule", "statement": "Egress was last told that the contact of a link is on exactly when it is on, so that it sends LTP pings only then.", "quantifier": "all contact plans, all histories", "why_tests_cant": "A contact can end in several ways, on each of which egress must be told.", "anchors": ["module/router/src/router.cpp: SendLinkUp, ProcessContacts, OnContactPlan_TimerExpired", "CHANGELOG.md: Egress now disables LTP ping"]}
{"id": "C114", "title": "Files that are sent arrive", "statement": "When bpsendfile sends files and all of its bundles reach bpreceivefile, in any order and possibly more than once, every file is there with the content it had. As long as some are missing, what is there of a file is not longer than the file, has its bytes at all positions that came, and zeros elsewhere. No other file is touched.", "quantifier": "all sets of files, all limits for bundles, all orders, losses and repetitions of bundles", "why_tests_cant": "The number of orders in which pieces can come is unbounded, and pieces may overlap what is already there.", "anchors": ["common/bpcodec/apps/bpsendfile/src/BpSendFile.cpp: GetNextPayloadLength_Step1, CopyPayload_Step2", "common/bpcodec/apps/bpreceivefile/src/BpReceiveFile.cpp: ProcessPayload, IsFileFullyReceived"]}
{"id": "C115", "title": "All files are sent, in pieces that are not too large", "statement": "bpsendfile sends every file in pieces that together are the file, none longer than the limit it was given, and then ends.", "quantifier": "all files, paths and limits", "why_tests_cant": "Sizes and limits are 64-bit numbers; boundary cases such as a limit of zero or of four gigabytes are not tested.", "anchors": ["common/bpcodec/apps/bpsendfile/src/BpSendFile.cpp: GetNextPayloadLength_Step1, CopyPayload_Step2", "common/bpcodec/apps/bpsendfile/src/BpSendFileRunner.cpp: max-bundle-size-bytes"]}
{"id": "C116", "title": "Any payload is safe to receive", "statement": "Whatever the payloads of the bundles are that reach bpreceivefile, it reads only bytes of them and uses no null pointer.", "quantifier": "all sequences of byte strings", "why_tests_cant": "Payloads come from other nodes and can be anything.", "anchors": ["common/bpcodec/apps/bpreceivefile/src/BpReceiveFile.cpp: ProcessPayload"]}
{"id": "C117", "title": "Files that are there are not overwritten", "statement": "bpreceivefile does not change a file that was in the directory before, whatever bundles come; and without a directory to save to it changes no file.", "quantifier": "all sequences of byte strings, all contents of the directory", "why_tests_cant": "It must hold for all payloads in all orders.", "anchors": ["common/bpcodec/apps/bpreceivefile/src/BpReceiveFile.cpp: ProcessPayload"]}
{"id": "C118", "title": "Files are only created below the directory", "statement": "bpreceivefile creates files only below the directory it was told to save to, and only those that bundles name.", "quantifier": "all sequences of byte strings", "why_tests_cant": "Paths come from other nodes and can be anything.", "anchors": ["common/bpcodec/apps/bpreceivefile/src/BpReceiveFile.cpp: ProcessPayload"]}
{"id": "C119", "title": "Encapsulation headers", "statement": "From the header that is made for a payload of 1 to 4294967287 bytes the receiver reads the kind, the size of the header (2, 4 or 8 bytes) and the size of the payload again. Idle packets are one byte. Nothing else gets a header, and a header of another kind is not accepted.", "quantifier": "all kinds, all sizes", "why_tests_cant": "Sizes range over 32 bits, with a different format in each range.", "anchors": ["common/util/include/CcsdsEncapEncode.h: GetCcsdsEncapHeader", "common/util/include/CcsdsEncapDecode.h: DecodeCcsdsEncapHeaderSizeFromFirstByte, DecodeCcsdsEncapPayloadSizeFromSecondToRemainingBytes"]}
{"id": "C120", "title": "Packets get through a local stream", "statement": "Packets that are sent over a local stream are handed to the callback one after the other, each as it was sent, with or without its header, whatever chunks the bytes come in and whenever the next read is started; idle packets between them are skipped; and after bytes that are no packet the stream is closed and connected again.", "quantifier": "all sequences of packets, all ways to cut them in chunks, all times at which reads are started", "why_tests_cant": "Chunks and times depend on the operating system.", "anchors": ["common/util/include/EncapAsyncDuplexLocalStream.h: StartReadFirstEncapHeaderByte_NotThreadSafe, HandleFirstEncapByteReadCompleted, HandleRemainingEncapHeaderReadCompleted, HandleEncapPayloadReadCompleted, HandleShutdown", "common/outduct_manager/src/BpOverEncapLocalStreamOutduct.cpp: Forward"]}
{"id": "C121", "title": "Any bytes on a local stream", "statement": "Whatever bytes come over a local stream, what is handed to the callback is what came, each packet as long as its header says, and no more memory is reserved than for the largest packet that was configured.", "quantifier": "all sequences of bytes in all chunks", "why_tests_cant": "The other side can send anything.", "anchors": ["common/util/include/EncapAsyncDuplexLocalStream.h: HandleRemainingEncapHeaderReadCompleted, M_MAX_ENCAP_RX_PACKET_SIZE_BYTES", "common/util/include/CcsdsEncapDecode.h: DecodeCcsdsEncapPayloadSizeFromSecondToRemainingBytes"]}
{"id": "C122", "title": "A source of bundles loses none", "statement": "As long as a source runs, each bundle that it has made is still in its hands, with the outduct, or waiting to be sent again, or was reported as sent; and is in one of these places only. Bundles have different identifiers.", "quantifier": "all orders of steps of the thread, callbacks of the outduct, link changes and stops", "why_tests_cant": "Callbacks come from other threads at any time.", "anchors": ["common/bpcodec/src/app_patterns/BpSourcePattern.cpp: BpSourcePatternThreadFunc, OnFailedBundleVecSendCallback, OnSuccessfulBundleSendCallback, OnOutductLinkStatusChangedCallback"]}
{"id": "C123", "title": "All bundles sent means all bundles sent", "statement": "When a source says that all bundles were generated and fully sent, each bundle that it has made was reported as sent.", "quantifier": "all orders of steps of the thread and callbacks", "why_tests_cant": "It depends on what other threads do between two checks.", "anchors": ["common/bpcodec/src/app_patterns/BpSourcePattern.cpp: BpSourcePatternThreadFunc"]}
{"id": "C124", "title": "The pipeline of a source", "statement": "The outduct of a source never has more bundles than its pipeline is configured for, and a bundle that was refused once is tried again until it is sent.", "quantifier": "all pipelines, all orders of steps and callbacks", "why_tests_cant": "Refusals and callbacks come at any time.", "anchors": ["common/bpcodec/src/app_patterns/BpSourcePattern.cpp: BpSourcePatternThreadFunc"]}
{"id": "C125", "title": "Bundles of a source have different timestamps", "statement": "No two bundles of a source have the same creation timestamp and sequence number.", "quantifier": "all sequences of times that the clock shows", "why_tests_cant": "Clocks can show anything.", "anchors": ["common/bpcodec/src/app_patterns/BpSourcePattern.cpp: BpSourcePatternThreadFunc"]}
{"id": "C126", "title": "One bundle for one bundle", "statement": "A source that must receive a bundle before it sends the next one has never sent more than one bundle more than it has received, and goes on after each bundle received; a bundle that fails is sent again.", "quantifier": "all orders of steps, callbacks and bundles received", "why_tests_cant": "Answers and failures come at any time.", "anchors": ["common/bpcodec/src/app_patterns/BpSourcePattern.cpp: BpSourcePatternThreadFunc, WholeRxBundleReadyCallback"]}
{"id": "C127", "title": "What a source takes as an answer", "statement": "A source processes the payloads of those bundles that are addressed to it and are neither fragments nor administrative records, and whose hop count is not exceeded.", "quantifier": "all bundles of both versions", "why_tests_cant": "Any bundle can be sent to it.", "anchors": ["common/bpcodec/src/app_patterns/BpSourcePattern.cpp: WholeRxBundleReadyCallback"]}
{"id": "C128", "title": "All custody transfers received", "statement": "When a source says that it has received all custody transfers, a custody signal that tells of success has come for each bundle that it has sent.", "quantifier": "all histories of bundles sent and signals received", "why_tests_cant": "Signals come in any order, and again.", "anchors": ["common/bpcodec/src/app_patterns/BpSourcePattern.cpp: BpSourcePatternThreadFunc, WholeRxBundleReadyCallback"]}
{"id": "C129", "title": "A sink gives the application what was sent to it", "statement": "The application behind a sink gets the payload of each bundle (version 6) that is for its endpoint, and no other; administrative records are not for the application.", "quantifier": "all bundles, all states that a history of bundles and timers leads to", "why_tests_cant": "Any bundle can be sent to it, after any others.", "anchors": ["common/bpcodec/src/app_patterns/BpSinkPattern.cpp: Process"]}
{"id": "C130", "title": "A sink puts fragments together", "statement": "A bundle that comes in fragments is given to the application when the last fragment has come, whole, and not before.", "quantifier": "all bundles, all ways to fragment, all orders, repetitions, and other bundles between", "why_tests_cant": "Orders and repetitions are unbounded.", "anchors": ["common/bpcodec/src/app_patterns/BpSinkPattern.cpp: Process"]}
{"id": "C131", "title": "A sink tells custodians about their bundles", "statement": "Each bundle that asks for custody, and whose payload the application has got, is acknowledged to its custodian: at once, or with the next aggregate. No other bundle is. No bundle of which custody was taken is lost.", "quantifier": "all bundles, all states that a history leads to", "why_tests_cant": "It depends on all bundles received before.", "anchors": ["common/bpcodec/src/app_patterns/BpSinkPattern.cpp: Process, SendAcsFromTimerThread, Forward_ThreadSafe"]}
{"id": "C132", "title": "The echo service of a sink, version 6", "statement": "A bundle to the echo service of a sink is sent back to its source unaltered, but for its source and destination; no bundle is sent to and fro without end, and answers can be told apart by source and creation time.", "quantifier": "all bundles and all states of the sink", "why_tests_cant": "Any bundle can be sent to it.", "anchors": ["common/bpcodec/src/app_patterns/BpSinkPattern.cpp: Process"]}
{"id": "C133", "title": "A sink and bundles of version 7", "statement": "The application gets the payload of each bundle for its endpoint, unless its hop count is exceeded; a bundle to the echo service is sent back with the echo service as source and previous node, and one more hop; any other is refused. No bundle is sent to and fro without end.", "quantifier": "all bundles of version 7", "why_tests_cant": "Any bundle can be sent to it.", "anchors": ["common/bpcodec/src/app_patterns/BpSinkPattern.cpp: Process"]}
{"id": "C134", "title": "A sink sends its answers", "statement": "Each bundle that a sink is to send waits, is with the outduct, or was reported as sent, and is in one of these places only; the outduct has no more of them than its pipeline takes; one that fails or is refused is tried again.", "quantifier": "all orders of steps of the sending thread, requests, callbacks of the outduct and link changes; all pipelines", "why_tests_cant": "Requests and callbacks come from other threads at any time.", "anchors": ["common/bpcodec/src/app_patterns/BpSinkPattern.cpp: SenderReaderThreadFunc, Forward_ThreadSafe, OnFailedBundleVecSendCallback, OnSuccessfulBundleSendCallback, OnOutductLinkStatusChangedCallback, Process"]}
{"id": "C135", "title": "Memory in files: what is read is what was written", "statement": "When the handler of a read request is called with success, each byte that was asked for is the one that was written there last before the request was made; and it is called with success if all of them were written.", "quantifier": "all histories of allocations, resizes, writes, reads and deletions, from handlers too; all orders in which operations on different files end", "why_tests_cant": "Blocks are spread over files whose operations end in any order.", "anchors": ["common/util/src/MemoryInFiles.cpp: WriteMemoryAsync, ReadMemoryAsync, DoWriteOrRead, TryStartNextQueuedIoOperation"]}
{"id": "C136", "title": "Memory in files: each handler is called once", "statement": "The handler of a request that was accepted is called exactly once; that of a request that was refused is not called.", "quantifier": "all histories and orders of completions, with or without errors", "why_tests_cant": "One request becomes operations on several files, which end in any order.", "anchors": ["common/util/src/MemoryInFiles.cpp: HandleDiskWriteCompleted, HandleDiskReadCompleted"]}
{"id": "C137", "title": "Memory in files: blocks are apart and live long enough", "statement": "No byte of a file belongs to two blocks; an operation is done only on a block and a file that are still there; a deleted block refuses requests and is gone when its operations are done; numbers of blocks are not used again.", "quantifier": "all histories, with or without errors", "why_tests_cant": "Deletions come at any time, also while operations wait.", "anchors": ["common/util/src/MemoryInFiles.cpp: DeleteMemoryBlock, ForceDeleteMemoryBlock, FinishCompletionHandler, AllocateNewWriteMemoryBlock"]}
{"id": "C138", "title": "Memory in files: sizes", "statement": "A block is at least as large as asked for, in units of 4096 bytes; it never becomes smaller, and no call changes the size of another block. A call that fails leaves no block.", "quantifier": "all sizes and all histories", "why_tests_cant": "All 64 bit sizes, after any history.", "anchors": ["common/util/src/MemoryInFiles.cpp: CeilToNearestBlockMultiple, Resize, GetSizeOfMemoryBlock"]}
{"id": "C139", "title": "Streaming: payloads are whole", "statement": "Each payload the sender of a stream hands over consists of as many whole packets as configured, each with its length before it; the packets are ones that were given, in the same order, each at most once. No memory is used that is not there.", "quantifier": "all histories of packets, all interleavings of the three threads, all sizes of queues", "why_tests_cant": "Three threads share two queues; the length of a payload and the payload itself are asked for in two steps.", "anchors": ["common/bpcodec/apps/BpSendStream/src/BpSendStream.cpp: ProcessIncomingBundlesThread, GetNextPayloadLength_Bytes_Step1, CopyPayload_Step2", "common/streaming/src/DtnRtp.cpp: PacketHandler"]}
{"id": "C140", "title": "Streaming: nothing is lost without an overflow", "statement": "If no queue overflows, the packets in the payloads are the first ones that were given, all queues can become empty, and then all packets have been handed over.", "quantifier": "all histories and interleavings", "why_tests_cant": "All interleavings.", "anchors": ["common/bpcodec/apps/BpSendStream/src/BpSendStream.cpp: WholeBundleReadyCallback, PushFrame, PushBundle"]}
{"id": "C141", "title": "Streaming: only packets of RTP version 2", "statement": "Packets with a whole header of RTP version 2 are sent; others are dropped and change nothing else.", "quantifier": "all packets and states", "why_tests_cant": "All headers.", "anchors": ["common/streaming/src/DtnRtp.cpp: PacketHandler"]}
{"id": "C142", "title": "Streaming: the receiver takes payloads apart", "statement": "For payloads made of packets, the receiver sends out these packets in order, and all of them if its queue has room; for any payload it uses no memory beyond it.", "quantifier": "all payloads and histories", "why_tests_cant": "All payloads.", "anchors": ["common/bpcodec/apps/BpReceiveStream/src/BpReceiveStream.cpp: ProcessPayload, ProcessIncomingBundlesThread"]}
{"id": "C143", "title": "Streaming: from end to end", "statement": "The packets the receiver sends out are ones given to the sender, in the same order, each at most once; if nothing overflows and all payloads arrive, they are the first ones given, and at most as many are missing as go into one bundle when all queues are empty.", "quantifier": "all histories of both programs; any payloads lost in between", "why_tests_cant": "All histories of two programs.", "anchors": ["common/bpcodec/apps/BpSendStream/src/BpSendStream.cpp: ProcessIncomingBundlesThread", "common/bpcodec/apps/BpReceiveStream/src/BpReceiveStream.cpp: ProcessPayload"]}
{"id": "C144", "title": "Simulator of a delayed link: order, contents and delay", "statement": "Packets go out as they came in, up to the maximum size, in the same order, each at most once, and none before the configured delay after its arrival.", "quantifier": "all histories of arrivals, timers and completed sends, all delays and sizes of the ring", "why_tests_cant": "Buffers are exchanged with those of a ring; timers and sends end at any time.", "anchors": ["module/udp_delay_sim/src/UdpDelaySim.cpp: HandleUdpReceive, QueuePacket, TransferRate_TimerExpired, HandleUdpSend"]}
{"id": "C145", "title": "Simulator of a delayed link: loss of signal", "statement": "The signal is lost once, from the configured time after the first arrival, for the configured duration, and packets that arrive then are not sent. Without one in the configuration it is never lost.", "quantifier": "all histories", "why_tests_cant": "The timer runs beside all other events.", "anchors": ["module/udp_delay_sim/src/UdpDelaySim.cpp: SetLosTimer, OnLosStart_TimerExpired, OnLosEnd_TimerExpired"]}
{"id": "C146", "title": "Simulator of a delayed link: no packet is forgotten", "statement": "A packet is dropped only in a loss of signal, by the filter, or if as many packets wait as the ring holds, which is counted. While the socket is open each accepted packet goes out: as long as one waits, it is being sent or the timer runs and ends when its delay is over.", "quantifier": "all histories", "why_tests_cant": "The timer is started from two places, on conditions of the ring.", "anchors": ["module/udp_delay_sim/src/UdpDelaySim.cpp: QueuePacket, TryRestartSendDelayTimer"]}
{"id": "C147", "title": "LTP engine: every bundle is answered for", "statement": "Each bundle given to the LTP engine is answered exactly once, as sent or by its return, unless its session still goes on. It is reported as sent only when all its packets were handed over in order and the receiver claimed all red data; it comes back only when a checkpoint went unanswered as often as allowed or someone cancelled the session. The end of a session is told at most once.", "quantifier": "all histories of requests, reports, timers, cancel segments, cancellations, ends of system calls and posted calls, for any number of sessions at once", "why_tests_cant": "Deletions of sessions are deferred through a queue, and everything may happen in between.", "anchors": ["common/ltp/src/LtpEngine.cpp: DoTransmissionRequest, GetNextPacketToSend, TryReturnTxSessionDataToUser, EraseTxSession, CancelSegmentReceivedCallback, CancellationRequest, NotifyEngineThatThisSenderNeedsDeletedCallback", "common/ltp/src/LtpSessionSender.cpp: NextTimeCriticalDataToSend, NextFirstPassDataToSend, ReportSegmentReceivedCallback, LtpCheckpointTimerExpiredCallback"]}
{"id": "C148", "title": "LTP engine: nothing is left behind", "statement": "When no system call is under way and no call is posted, no session has anything to send or to be deleted. At most five system calls are under way. If nothing else happens, the engine comes to such a state after a bounded number of completions and posted calls, in any order.", "quantifier": "all histories", "why_tests_cant": "A wake-up lost in one interleaving stops the engine for good.", "anchors": ["common/ltp/src/LtpEngine.cpp: TrySaturateSendPacketPipeline, TrySendPacketIfAvailable, OnSendPacketsSystemCallCompleted_ThreadSafe, SignalReadyForSend_ThreadSafe, OnDeferredReadCompleted"]}
{"id": "C149", "title": "LTP engine: what goes first", "statement": "No packet of a first transmission is sent while an acknowledgement of a report, a retransmission, a report, a cancel segment or its acknowledgement waits; and the packets of each first transmission are sent in their order, each once.", "quantifier": "all histories of all sessions", "why_tests_cant": "It depends on several queues that may name sessions which are gone or have nothing to send.", "anchors": ["common/ltp/src/LtpEngine.cpp: GetNextPacketToSend"]}
{"id": "C150", "title": "TCPCLv3 link: what is forwarded arrives", "statement": "On a link between a bundle source and a bundle sink, at each end the bundles delivered are a prefix of those accepted at the other end: whole, in order, none twice and none skipped, however they are cut into segments and whatever else goes over the link. As long as no write fails, all of them are delivered and reported as sent after finitely many further steps.", "quantifier": "all histories of both ends: bundles forwarded in both directions, keep-alives, failing writes, shutdowns, in every interleaving", "why_tests_cant": "Segments, acknowledgements, contact headers and shutdowns of two programs interleave in unboundedly many ways.", "anchors": ["common/tcpcl/src/TcpclV3BidirectionalLink.cpp: BaseClass_Forward, BaseClass_DataSegmentCallback, BaseClass_AckCallback, BaseClass_ContactHeaderCallback", "common/util/src/TcpAsyncSender.cpp: AsyncSend_NotThreadSafe, HandleTcpSend"]}
{"id": "C151", "title": "TCPCLv3 link: what is reported as sent has arrived", "statement": "Bundles are reported as sent in the order in which they were accepted, each at most once with its own user data, and only after that bundle was delivered at the other end.", "quantifier": "all histories of both ends", "why_tests_cant": "Acknowledgements carry only sizes, so that a report can be attributed to the wrong bundle in some interleaving.", "anchors": ["common/tcpcl/src/TcpclV3BidirectionalLink.cpp: BaseClass_AckCallback, BaseClass_Forward"]}
{"id": "C152", "title": "TCPCLv3 link: what is accepted", "statement": "A bundle is accepted exactly if the contact headers are exchanged, no shutdown began, and the number of unacknowledged bundles is below the limit; a refused one leaves the link as it was.", "quantifier": "all histories of both ends", "why_tests_cant": "The number of unacknowledged bundles depends on the whole history.", "anchors": ["common/tcpcl/src/TcpclV3BidirectionalLink.cpp: BaseClass_Forward, Virtual_GetMaxTxBundlesInPipeline"]}
{"id": "C153", "title": "TCPCLv3 link: bundles of a connection that ended", "statement": "When a connection ends, each bundle that was accepted and is not acknowledged is returned to the user once with its user data; it is not reported as sent later, and the link goes on after it has connected again.", "quantifier": "all histories with several connections", "why_tests_cant": "It depends on which bundles were under way at the moment of the failure.", "anchors": ["common/tcpcl/src/TcpclV3BidirectionalLink.cpp: BaseClass_AckCallback, BaseClass_DoHandleSocketShutdown, BaseClass_BundleRefusalCallback", "common/util/src/TcpAsyncSender.cpp: DoFailedBundleCallback", "common/tcpcl/src/TcpclBundleSource.cpp: OnNeedToReconnectAfterShutdown_TimerExpired, OnConnect"]}
{"id": "C154", "title": "LTP over UDP: packets reach their engine", "statement": "When several LTP engines share a UDP port, a segment sent by a sender of blocks is given to the induct for the engine it names as the originator of its session, and a segment sent by a receiver of blocks to the outduct that started the session. No other engine sees it, and each engine processes its packets as they arrived and in their order; a packet is only left out if the engine's ring is full, which is counted.", "quantifier": "all histories of adding and removing inducts and outducts, all datagrams, all contents of the receive buffer behind them", "why_tests_cant": "The way of a packet depends on the session number, on the engines that were added and removed before, and on a cached iterator.", "anchors": ["common/ltp/src/LtpUdpEngineManager.cpp: HandleUdpReceive, AddLtpUdpEngine, RemoveLtpUdpEngineByRemoteEngineId_NotThreadSafe", "common/ltp/src/LtpUdpEngine.cpp: PostPacketFromManager_ThreadSafe", "common/ltp/src/Ltp.cpp: GetMessageDirectionFromSegmentFlags"]}
{"id": "C155", "title": "LTP over UDP: no datagram disturbs the others", "statement": "Whatever a datagram contains, the port goes on receiving, the behaviour of the program is defined, no other engine is affected, and what is done with it depends on that datagram alone.", "quantifier": "all datagrams, all contents of the receive buffer, all histories", "why_tests_cant": "It must hold for every sequence of bytes that anyone on the network may send.", "anchors": ["common/ltp/src/LtpUdpEngineManager.cpp: HandleUdpReceive, DoUdpShutdown", "common/ltp/src/Ltp.cpp: GetMessageDirectionFromSegmentFlags"]}
{"id": "C156", "title": "LTP over UDP: adding and removing engines", "statement": "An induct can be added exactly if there is none for its remote engine, and an outduct exactly if there is none for its remote engine and fewer than seven exist. Removing an engine removes that one and leaves the others as they are.", "quantifier": "all histories of adding and removing", "why_tests_cant": "Indices are used up by the history.", "anchors": ["common/ltp/src/LtpUdpEngineManager.cpp: AddLtpUdpEngine, RemoveLtpUdpEngineByRemoteEngineId_NotThreadSafe"]}
{"id": "C157", "title": "LTP outduct: the number of bundles under way", "statement": "At most the configured number of bundles are under way over an LTP outduct. A bundle is accepted exactly if the outduct is ready and there is room for it; bundles that the engine gave up and sessions that the remote engine starts take no room.", "quantifier": "all interleavings of the calling thread with the engine's, all histories of sessions that start, complete, are cancelled or are given up", "why_tests_cant": "The counter and the set of sessions are changed by two threads one after the other; a wrong count shows only in certain interleavings or after certain histories.", "anchors": ["common/ltp/src/LtpBundleSource.cpp: Forward, SessionStartCallback, TransmissionSessionCompletedCallback, TransmissionSessionCancelledCallback", "common/ltp/src/LtpEngine.cpp: TransmissionRequest, DoTransmissionRequest"]}
{"id": "C158", "title": "LTP outduct: counts", "statement": "The bundles and bytes counted as sent are those of the bundles that were accepted, each session that ends is counted once, as acknowledged or as failed, and the number of unacknowledged bundles is the number under way.", "quantifier": "all interleavings of the calling thread with the engine's, all histories", "why_tests_cant": "The counts are changed by two threads.", "anchors": ["common/ltp/src/LtpBundleSource.cpp: GetTotalBundlesUnacked, Forward, TransmissionSessionCompletedCallback, TransmissionSessionCancelledCallback"]}
{"id": "C159", "title": "LTP outduct: waiting at the end", "statement": "Stopping an LTP outduct ends as soon as all bundles are acknowledged, gives up only after nine further questions without progress, and always ends.", "quantifier": "all sequences of numbers of unacknowledged bundles that are observed", "why_tests_cant": "It must hold for every timing of the acknowledgements.", "anchors": ["common/ltp/src/LtpBundleSource.cpp: Stop"]}
{"id": "C160", "title": "BP over encapsulation packets: every bundle answered once, in order, and delivered", "statement": "Every bundle that the outduct accepts is reported as sent or returned as failed exactly once, in the order of acceptance. The receiver delivers only bundles that were accepted, in order and none twice, and, if no write fails, exactly those reported as sent that are not longer than its limit. Bundles that wait are always on their way, and the outduct recovers when the stream is connected again.", "quantifier": "all histories of bundles, writes that succeed or fail after any number of bytes, connections and posted calls; all ways in which the stream cuts the bytes", "why_tests_cant": "It must hold for every interleaving of the calls with the completions of writes and for every cut of the stream.", "anchors": ["common/outduct_manager/src/BpOverEncapLocalStreamOutduct.cpp: Forward, TrySendDataIfAvailable_NotThreadSafe, HandleSend, DoFailedBundleCallback", "common/induct_manager/src/BpOverEncapLocalStreamInduct.cpp: OnFullEncapPacketReceived"]}
{"id": "C161", "title": "BP over encapsulation packets: acceptance and counts", "statement": "The outduct accepts a bundle exactly if it is connected, fewer than the configured number wait and the size fits a packet. It counts bundles and bytes as they are accepted, reported as sent and returned; the number unacknowledged is the number that waits, so that stopping ends once all are answered.", "quantifier": "all histories of bundles, writes and connections", "why_tests_cant": "The counts are changed in several functions and must agree after every history.", "anchors": ["common/outduct_manager/src/BpOverEncapLocalStreamOutduct.cpp: Forward, GetTotalBundlesUnacked, HandleSend, DoFailedBundleCallback, Stop"]}
{"id": "C162", "title": "BP over encapsulation packets: the way back from the induct", "statement": "A bundle taken for the way back over an induct's stream is written once, in order, as soon as there is a connection, or is reported as failed.", "quantifier": "all histories of bundles, writes that succeed or fail, connections and posted notifications", "why_tests_cant": "It must hold for every interleaving of notifications, writes and connections.", "anchors": ["common/induct_manager/src/BpOverEncapLocalStreamInduct.cpp: TrySendBundleIfAvailable_NotThreadSafe, HandleSend, OnLocalStreamConnectionStatusChanged", "common/induct_manager/src/Induct.cpp: ForwardOnOpportunisticLink, BundleSinkTryGetData_FromIoServiceThread"]}
{"id": "C163", "title": "LTP over shared memory: packets arrive unchanged, in order and once", "statement": "The receiving engine is handed the packets that were sent, unchanged, in order and each once. No packet is written over before it was processed, the ring is never full when a place is free nor empty when there is data, the threads never wait for ever, and a packet that cannot be sent costs nothing.", "quantifier": "all interleavings of the sending engine, the reading thread and the receiving engine; all packets; all orders in which writes to disk end; rings of every size", "why_tests_cant": "The semaphores are changed by three threads in two processes; an error shows only in certain interleavings.", "anchors": ["common/ltp/src/LtpIpcEngine.cpp: DoSendPacket, ReadRemoteTxShmThreadFunc, PacketInFullyProcessedCallback", "common/ltp/include/LtpIpcEngine.h: IpcControl", "common/ltp/src/LtpEngine.cpp: PacketIn, NotifyEngineThatThisReceiverCompletedDeferredOperation"]}
{"id": "C164", "title": "LTP over shared memory: which packets are let in", "statement": "A packet is let in exactly if it is a segment of a block from the expected engine or about a block that this engine sends. Any other packet is refused, whatever its bytes are and whatever the memory held before.", "quantifier": "all packets and all contents of the memory behind them", "why_tests_cant": "It must hold for every packet.", "anchors": ["common/ltp/src/LtpIpcEngine.cpp: VerifyIpcPacketReceive", "common/ltp/src/Ltp.cpp: GetMessageDirectionFromSegmentFlags"]}
{"id": "C165", "title": "Repeater for encapsulation packets: unchanged, in order and once", "statement": "What the repeater writes on one stream is what came on the other: the same packets, unchanged, in order and each once; packets of the two directions are not mixed. A failed write costs no more than the connection.", "quantifier": "all packets, all orders in which reads and writes end, all connections and reconnections of both streams, all failures", "why_tests_cant": "It must hold for every interleaving of reads, writes and reconnections.", "anchors": ["module/encap_repeater/src/EncapRepeater.cpp: OnFullEncapPacketReceived, TrySendQueued, HandleSend", "common/util/include/EncapAsyncDuplexLocalStream.h: StartReadFirstEncapHeaderByte_NotThreadSafe, HandleShutdown"]}
{"id": "C166", "title": "Repeater for encapsulation packets: bounded, and never stuck", "statement": "At most as many packets wait as are configured. A stream is read unless the queue is full, a write is in progress while packets wait and the stream is connected, and all that came goes out as the writes end.", "quantifier": "all packets, all orders of events, all reconnections, all failures", "why_tests_cant": "A read that is not started again, or started once too often, shows only in certain orders of events.", "anchors": ["module/encap_repeater/src/EncapRepeater.cpp: OnFullEncapPacketReceived, HandleSend, RunForever, OnLocalStreamConnectionStatusChanged"]}
{"id": "C167", "title": "Loading the outducts of a node", "statement": "The outducts are loaded exactly if each entry of the configuration can be used (its pipeline holds two of the longest bundles, its layer is known and starts) and no two have the same next hop. Then outduct number i is that of entry i, it is found by its next hop, there are no routes, and links with connections were announced as down before they connect.", "quantifier": "all configurations and all states before", "why_tests_cant": "It must hold for every configuration.", "anchors": ["common/outduct_manager/src/OutductManager.cpp: LoadOutductsFromConfig, GetOutductByNextHopNodeId, GetOutductByOutductUuid"]}
{"id": "C168", "title": "Routes lead to the outducts that the router named", "statement": "After any sequence of route updates a bundle is handed to the outduct with the next hop that the router last named for its destination, and to no other; it is refused if there is none or if the outduct has as many bundles as its limit. A refused update changes nothing. The destinations listed for an outduct are those routed to it, each once.", "quantifier": "all configurations, all sequences of route updates, bundles and acknowledgements", "why_tests_cant": "It must hold for every history of updates.", "anchors": ["common/outduct_manager/src/OutductManager.cpp: Reroute_ThreadSafe, Forward, GetOutductByFinalDestinationEid_ThreadSafe, GetAllOutductCapabilitiesTelemetry_ThreadSafe", "common/include/message.hpp: HDTN_NOROUTE"]}
{"id": "C169", "title": "LTP over encapsulation packets: what goes out", "statement": "The packets that the LTP engine sends go out in order, each call as a whole, and each connection begins at the first byte of what one call gave and goes on without a gap, however often the stream is lost and in the middle of whatever write; a receiver gets exactly such packets, unchanged.", "quantifier": "all sequences of calls, ends of writes (whole or after any number of bytes), and connections gained and lost; all ways of reading in pieces", "why_tests_cant": "It must hold for every order of calls, failures and reconnections.", "anchors": ["common/ltp/src/LtpEncapLocalStreamEngine.cpp: SendPacket, SendPackets, TrySendOperationIfAvailable_NotThreadSafe, HandleSendOperationCompleted, OnLocalStreamConnectionStatusChanged"]}
{"id": "C170", "title": "LTP over encapsulation packets: nothing is forgotten", "statement": "There is always room for what the LTP engine sends. What it sent is written once the stream is connected and the writes end.", "quantifier": "all sequences of calls, ends of writes, and connections gained and lost", "why_tests_cant": "It must hold for every history of failures.", "anchors": ["common/ltp/src/LtpEncapLocalStreamEngine.cpp: SendPacket, SendPackets, HandleSendOperationCompleted, OnLocalStreamConnectionStatusChanged", "common/ltp/src/LtpEngine.cpp: TrySendPacketIfAvailable, OnSendPacketsSystemCallCompleted_ThreadSafe"]}
{"id": "C171", "title": "Many UDP packets per system call: what is sent and what is reported", "statement": "The datagrams of the batches are sent in order, each whole and once, however many the operating system takes per call; a batch that it refuses is cut there. Each batch is answered once, in order, with the number of its datagrams that were sent, and success is reported exactly if that is all of them.", "quantifier": "all sequences of batches and of results of the operating system", "why_tests_cant": "The operating system decides how many messages it takes per call; every such history must be covered.", "anchors": ["common/util/src/UdpBatchSender.cpp: QueueSendPacketsOperation_CalledFromWithinIoServiceThread, TrySendQueued, OnAsyncSendCompleted, sendmmsg_op"]}
{"id": "C172", "title": "Many UDP packets per system call: every batch is answered", "statement": "An operation is in progress whenever a batch waits, and every batch is answered once the operating system has taken or refused its messages.", "quantifier": "all sequences of batches and of results of the operating system", "why_tests_cant": "It must hold for every history.", "anchors": ["common/util/src/UdpBatchSender.cpp: TrySendQueued, OnAsyncSendCompleted, sendmmsg_op"]}
{"id": "C173", "title": "Each file of a directory is sent once", "statement": "The files that are sent are those that were found in the directory, each once and in the order in which they were found, and none that was found is left out, whatever the sender and the scanner do at the same time.", "quantifier": "all sets of files at the beginning, all sequences of changes of files, timers, and calls of the sender, with the timed wait interrupted anywhere", "why_tests_cant": "It must hold for every interleaving of the thread of the scanner with that of the sender.", "anchors": ["common/util/src/DirectoryScanner.cpp: GetNextFilePath, GetNextFilePathTimeout, Reload", "common/bpcodec/apps/bpsendfile/src/BpSendFile.cpp: GetNextPayloadLength_Step1, CopyPayload_Step2, TryWaitForDataAvailable"]}
{"id": "C174", "title": "New files are found when they no longer change", "statement": "A new file is found only if its size stayed that of its last change until the timer expired and it can be opened. A file that no longer changes and can be opened is found after the timer has expired for each event that is waiting. A file that is removed meanwhile does no harm.", "quantifier": "all sequences of changes of files and timers", "why_tests_cant": "It must hold for every history of events of the file system.", "anchors": ["common/util/src/DirectoryScanner.cpp: TryAddNewFile, OnRecheckFileSize_TimerExpired"]}
{"id": "C175", "title": "The queue of writes of a TCP connection", "statement": "What is sent on a connection is written whole and in order, one write at a time, and each end of a write is reported once. After a failed write nothing more is written, and each bundle that was not written whole, also those sent later, is reported as failed once and in order. If no write fails, all is written.", "quantifier": "all sequences of sends, ends of writes and failed writes after any number of bytes, with all sorts of elements and callbacks", "why_tests_cant": "It must hold for every interleaving of sends with the ends of writes.", "anchors": ["common/util/src/TcpAsyncSender.cpp: TcpAsyncSenderSsl, TcpAsyncSender: AsyncSend..., HandleTcpSend..., DoFailedBundleCallback"]}
{"id": "C176", "title": "What is to be secured is written through TLS", "statement": "What a TCPCLv4 link sends for the secured layer of a connection is written through TLS, and what it sends for the plain layer is not.", "quantifier": "all sequences of sends for both layers, ends of writes and failed writes", "why_tests_cant": "It must hold for every interleaving of sends with the ends of writes.", "anchors": ["common/util/src/TcpAsyncSender.cpp: AsyncSendSecure_NotThreadSafe, AsyncSendUnsecure_NotThreadSafe, HandleTcpSendSecure, HandleTcpSendUnsecure"]}
{"id": "C177", "title": "Hexadecimal text and the key files of BPSec", "statement": "Bytes converted to hexadecimal text and back are unchanged. Text is converted exactly to the bytes for which it stands, in either case of letters, and refused exactly if its length is odd or it has another character. A key file gives a key exactly if it has the text of the key, with at least one byte, and around it only white space.", "quantifier": "all byte strings, all texts, all contents of key files", "why_tests_cant": "It must hold for all texts and byte strings of any length.", "anchors": ["common/util/src/BinaryConversions.cpp: BytesToHexString, HexStringToBytes", "common/bpsec/src/BpSecPolicyManager.cpp: LoadFromConfig (KEY_FILE, KEY_ENCRYPTION_KEY_FILE)"]}
{"id": "C178", "title": "Memory of the allocator that keeps unused nodes", "statement": "However allocators of this kind are created, copied, moved, assigned and destroyed, and whichever of them a block is given back to: a request is never answered with a block that the user still holds or that was given back to the operating system, no block is released twice, no allocator keeps more unused nodes than its limit, and when all are destroyed only what the user still holds is in use.", "quantifier": "all histories of calls on any number of allocators, all limits, all addresses the operating system may answer", "why_tests_cant": "It is about every interleaving of moves, assignments and requests among any number of allocators.", "anchors": ["common/util/include/FreeListAllocator.h: FreeListAllocator"]}
{"id": "C179", "title": "User data given back is handed out again, once", "statement": "The bin of user data never has more than its limit. A vector is accepted exactly if there is room and it brings memory; the accepted vectors are exactly those given out and those in the bin, unchanged. A request gets the vector accepted last and not yet given out, or leaves the caller's as it was. After a request the data is from the bin if and only if it is not empty.", "quantifier": "all histories of calls, all limits, all vectors", "why_tests_cant": "It must hold for every history of vectors given back and asked for.", "anchors": ["common/util/include/UserDataRecycler.h: ReturnUserData, GetRecycledOrCreateNewUserData"]}
{"id": "C180", "title": "Conversion between times of DTN and of the clock", "statement": "Every time of the clock becomes a time of DTN that stands for the same instant and comes back unchanged. A time of DTN taken to the clock and back loses less than a microsecond and never gains. Times of DTN are ordered as the instants they stand for.", "quantifier": "all times of the clock, all times of DTN with 64 bits of seconds and less than a second of nanoseconds", "why_tests_cant": "It must hold for all times; tests take one.", "anchors": ["common/util/src/TimestampUtil.cpp: PtimeToDtnTime, DtnTimeToPtimeLossy, dtn_time_t::operator<"]}
