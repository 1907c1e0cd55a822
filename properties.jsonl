{"id": "C01", "title": "TLV variable-size number round trip", "statement": "For every 64-bit number n, the bytes produced by tlv::writeVarNumber(n) followed by any bytes are read back by tlv::readVarNumber as exactly n, leaving exactly the following bytes; the number of bytes written is tlv::sizeOfVarNumber(n) and is the shortest of the forms the reader accepts for n.", "quantifier": "every n in [0,2^64) and every trailing byte string", "why_tests_cant": "2^64 values times every suffix; tests sample the boundaries only", "anchors": ["ndn-cxx/encoding/tlv.hpp:tlv::readVarNumber", "ndn-cxx/encoding/tlv.hpp:tlv::sizeOfVarNumber", "ndn-cxx/encoding/tlv.cpp:tlv::writeVarNumber"]}
{"id": "C02", "title": "TLV number reader is bounded, total and prefix-stable", "statement": "On every byte string tlv::readVarNumber and tlv::readType either fail without consuming a well-defined result or return a number that depends only on the bytes consumed, never read past the end, fail only when the bytes announced by the first octet are not all there (readType additionally rejects 0 and values above 2^32-1), and appending bytes to an input that was read successfully does not change the result.", "quantifier": "every byte string", "why_tests_cant": "the set of byte strings is infinite", "anchors": ["ndn-cxx/encoding/tlv.hpp:tlv::readVarNumber", "ndn-cxx/encoding/tlv.hpp:tlv::readType", "ndn-cxx/encoding/tlv.hpp:tlv::detail::readNumber"]}
{"id": "C03", "title": "NonNegativeInteger round trip and minimal length", "statement": "For every 64-bit n, tlv::writeNonNegativeInteger(n) writes sizeOfNonNegativeInteger(n) bytes (1, 2, 4 or 8, the least that fit) and tlv::readNonNegativeInteger over that length returns n; for a length other than 1, 2, 4, 8, or one exceeding the available bytes, the reader fails; readNonNegativeIntegerAs<R> returns the value exactly when it fits in R.", "quantifier": "every n, every length, every byte string", "why_tests_cant": "2^64 values; every length", "anchors": ["ndn-cxx/encoding/tlv.hpp:tlv::readNonNegativeInteger", "ndn-cxx/encoding/tlv.hpp:tlv::sizeOfNonNegativeInteger", "ndn-cxx/encoding/tlv.cpp:tlv::writeNonNegativeInteger", "ndn-cxx/encoding/block-helpers.hpp:readNonNegativeIntegerAs"]}
{"id": "C04", "title": "Encoder buffer is a byte deque; estimator agrees", "statement": "Starting from any reserve sizes, every sequence of prepend/append operations on an Encoder (bytes, ranges, VAR-NUMBERs, NonNegativeIntegers, with any interleaved reserveFront/reserveBack) leaves in the buffer exactly the concatenation obtained by prepending/appending the same byte strings to an initially empty list, never writes outside the allocated storage, and each operation returns the same size as the same operation on an Estimator.", "quantifier": "every initial reserve and every finite sequence of operations", "why_tests_cant": "sequences and reserve sizes are unbounded; reallocation points vary", "anchors": ["ndn-cxx/encoding/encoder.hpp:Encoder", "ndn-cxx/encoding/encoder.cpp:Encoder::reserve", "ndn-cxx/encoding/estimator.hpp:Estimator"]}
{"id": "C05", "title": "Block encode/decode round trip", "statement": "For every TLV element tree, encoding it and decoding the bytes (from a span, or as the first element of a longer buffer) gives back an equal tree; Block::fromBuffer consumes exactly the encoded length.", "quantifier": "every finite element tree (types 1..2^32-1, any nesting, any sizes below 2^64) and every trailing byte string", "why_tests_cant": "unbounded depth and width", "anchors": ["ndn-cxx/encoding/block.cpp:Block::encode", "ndn-cxx/encoding/block.cpp:Block::fromBuffer", "ndn-cxx/encoding/block.cpp:Block::parse"]}
{"id": "C06", "title": "Block::fromBuffer on arbitrary bytes", "statement": "For every byte string Block::fromBuffer either reports failure or returns an element whose type, value and size are exactly those delimited by the leading TLV header; it fails exactly when the header is incomplete or malformed or the announced value is not entirely present; success is not changed by appending bytes, and failure for want of bytes is the only failure that more bytes can cure.", "quantifier": "every byte string", "why_tests_cant": "infinite input space, including hostile input", "anchors": ["ndn-cxx/encoding/block.cpp:Block::fromBuffer", "ndn-cxx/encoding/block.cpp:Block::Block(span)"]}
{"id": "C07", "title": "Block::parse is lossless and all-or-nothing", "statement": "If Block::parse() succeeds, the wire encodings of the sub-elements concatenated are exactly the value bytes (no byte dropped, reordered or invented), and each sub-element type is in 1..2^32-1; if the value is not a well-formed sequence of TLVs parse() fails, however often it is called.", "quantifier": "every value byte string and every number of calls", "why_tests_cant": "infinite input space; repeated calls", "anchors": ["ndn-cxx/encoding/block.cpp:Block::parse"]}
{"id": "C08", "title": "Block mutators behave as list operations and never leave a stale wire", "statement": "After any sequence of push_back, erase, remove, insert, encode, and get/find queries on a Block built from elements, encode() gives the TLV of the current element list and get/find return the first current element of the given type.", "quantifier": "every finite sequence of operations", "why_tests_cant": "unbounded histories; stale caches show only in particular interleavings", "anchors": ["ndn-cxx/encoding/block.cpp:Block::push_back", "ndn-cxx/encoding/block.cpp:Block::erase", "ndn-cxx/encoding/block.cpp:Block::remove", "ndn-cxx/encoding/block.cpp:Block::insert", "ndn-cxx/encoding/block.cpp:Block::encode", "ndn-cxx/encoding/block.cpp:Block::resetWire"]}
{"id": "C09", "title": "Block::fromStream consumes exactly one element and honours the packet size limit", "statement": "From any input stream, Block::fromStream either fails or returns the element at the head of the stream, whose total size does not exceed MAX_NDN_PACKET_SIZE, and the stream is left exactly after it.", "quantifier": "every stream content", "why_tests_cant": "infinite input space; hostile lengths near 2^64", "anchors": ["ndn-cxx/encoding/block.cpp:Block::fromStream"]}
{"id": "C10", "title": "Canonical order of name components is a strict total order consistent with equality", "statement": "name::Component::compare is a total order on components, agrees with ==, orders by TLV-TYPE, then TLV-LENGTH, then bytes; this whether or not the components carry a wire encoding.", "quantifier": "all components (all pairs and triples)", "why_tests_cant": "transitivity/totality over an infinite set", "anchors": ["ndn-cxx/name-component.cpp:Component::compare", "ndn-cxx/name-component.hpp:Component::operator=="]}
{"id": "C11", "title": "Canonical order of names", "statement": "Name::compare is a total order, is lexicographic over components with a proper prefix ordered first, returns 0 exactly for equal names, and compare(pos1,n1,other,pos2,n2) equals comparing the corresponding sub-names.", "quantifier": "all names (all pairs and triples) and all positions/counts within range", "why_tests_cant": "infinite set", "anchors": ["ndn-cxx/name.cpp:Name::compare", "ndn-cxx/name.cpp:Name::equals"]}
{"id": "C12", "title": "isPrefixOf and range search", "statement": "a.isPrefixOf(b) holds exactly when b starts with all components of a; for non-empty a this is equivalent to a <= b < a.getSuccessor() in canonical order.", "quantifier": "all pairs of names", "why_tests_cant": "infinite set; carry chains in the successor are long", "anchors": ["ndn-cxx/name.cpp:Name::isPrefixOf", "ndn-cxx/name.cpp:Name::getSuccessor", "ndn-cxx/name.cpp:Name::compare"]}
{"id": "C13", "title": "getSuccessor is the next element of canonical order", "statement": "Component::getSuccessor returns the least component greater than the given one (over all valid components), and Name::getSuccessor returns the least name that is greater than every name having the given non-empty name as prefix.", "quantifier": "all valid components and names", "why_tests_cant": "must exclude every candidate in between", "anchors": ["ndn-cxx/name-component.cpp:Component::getSuccessor", "ndn-cxx/impl/name-component-types.hpp:getSuccessorImpl", "ndn-cxx/name.cpp:Name::getSuccessor"]}
{"id": "C14", "title": "Name URI round trip", "statement": "For every name made of valid components, Name(n.toUri(f)) equals n for both URI formats f.", "quantifier": "all names, both formats", "why_tests_cant": "infinite set; dot-only, empty and percent-escaped components", "anchors": ["ndn-cxx/name.cpp:Name::toUri", "ndn-cxx/name.cpp:Name::Name(std::string_view)", "ndn-cxx/name-component.cpp:Component::fromUri", "ndn-cxx/name-component.cpp:Component::toUri", "ndn-cxx/impl/name-component-types.hpp:ComponentTypeTable"]}
{"id": "C15", "title": "URI parsing yields only valid components", "statement": "For every string, Component::fromUri either fails or returns a component that passes component validation (type 1..65535; 32-byte digests).", "quantifier": "every string", "why_tests_cant": "infinite input space", "anchors": ["ndn-cxx/name-component.cpp:Component::fromUri", "ndn-cxx/name-component.cpp:Component::ensureValid"]}
{"id": "C16", "title": "Naming conventions round trip and are recognised", "statement": "For each of segment, byte offset, version, timestamp and sequence number and for each convention in force, the component made from a number is recognised by the corresponding predicate when decoding accepts that convention, converts back to the same number, and is not recognised as any other kind under the typed convention.", "quantifier": "every number below 2^64, every kind, both conventions", "why_tests_cant": "2^64 values per kind", "anchors": ["ndn-cxx/name-component.cpp:Component::fromSegment", "ndn-cxx/name-component.cpp:Component::toSegment", "ndn-cxx/name-component.cpp:Component::isSegment", "ndn-cxx/name-component.cpp:Component::isNumberWithMarker"]}
{"id": "C17", "title": "Name editing never yields a stale encoding", "statement": "After any sequence of append, appendX, set, erase and clear calls interleaved with wireEncode and hash queries, the wire encoding decodes to exactly the current list of components and equals the encoding of a freshly built equal name.", "quantifier": "every finite sequence of operations", "why_tests_cant": "cached wires go stale only after particular interleavings", "anchors": ["ndn-cxx/name.cpp:Name::wireEncode", "ndn-cxx/name.cpp:Name::append", "ndn-cxx/name.cpp:Name::set", "ndn-cxx/name.cpp:Name::erase", "ndn-cxx/name.hpp:Name::clear"]}
{"id": "C18", "title": "Sub-name selection", "statement": "getSubName(i,n) and getPrefix(n) with non-negative or negative arguments select the documented components: the i-th (or i-th from the end) onward, at most n of them; getPrefix(-n) drops the last n; at(i) throws exactly outside [-size,size).", "quantifier": "all names and all (signed/unsigned 64-bit) arguments", "why_tests_cant": "all argument values incl. wrap-around", "anchors": ["ndn-cxx/name.cpp:Name::getSubName", "ndn-cxx/name.hpp:Name::getPrefix", "ndn-cxx/name.cpp:Name::at", "ndn-cxx/name.hpp:Name::get"]}
{"id": "C19", "title": "Equal names and components hash equally", "statement": "If two names compare equal then std::hash gives the same value, so unordered containers find them.", "quantifier": "all pairs of names, however they were constructed or decoded", "why_tests_cant": "all pairs; depends on the encoding they were decoded from", "anchors": ["ndn-cxx/name.cpp:std::hash<Name>", "ndn-cxx/name-component.hpp:Component::operator=="]}
{"id": "C20", "title": "Percent escaping round trip", "statement": "unescape(escape(s)) = s for every byte string s and escape(s) consists only of unreserved characters and %HH triples; unescape leaves malformed escapes untouched.", "quantifier": "every byte string", "why_tests_cant": "infinite set", "anchors": ["ndn-cxx/util/string-helper.cpp:escape", "ndn-cxx/util/string-helper.cpp:unescape"]}
{"id": "C21", "title": "MetaInfo round trip and reset on decode", "statement": "Decoding an encoded MetaInfo gives an equal MetaInfo, and decoding into an object that previously held other values leaves nothing of them behind.", "quantifier": "all MetaInfo values and all previous contents", "why_tests_cant": "combination of field presence and previous contents", "anchors": ["ndn-cxx/meta-info.cpp:MetaInfo::wireEncode", "ndn-cxx/meta-info.cpp:MetaInfo::wireDecode"]}
{"id": "C22", "title": "KeyLocator and SignatureInfo round trip", "statement": "Decoding an encoded KeyLocator or SignatureInfo (Data or Interest variant) gives an equal object; the emitted TLV-TYPE is that of the requested variant.", "quantifier": "all field combinations, both variants, all call histories", "why_tests_cant": "combinations of optional/custom fields and caching", "anchors": ["ndn-cxx/key-locator.cpp:KeyLocator", "ndn-cxx/signature-info.cpp:SignatureInfo::wireEncode", "ndn-cxx/signature-info.cpp:SignatureInfo::wireDecode"]}
{"id": "C23", "title": "Data round trip", "statement": "For every Data (any name, MetaInfo, content, SignatureInfo, signature value), decoding its wire encoding gives equal fields, and re-encoding gives the same bytes.", "quantifier": "all Data packets", "why_tests_cant": "infinite set", "anchors": ["ndn-cxx/data.cpp:Data::wireEncode", "ndn-cxx/data.cpp:Data::wireDecode"]}
{"id": "C24", "title": "Data setters never leave a stale wire or full name", "statement": "After any sequence of setters interleaved with wireEncode/getFullName, wireEncode() decodes to the current field values and getFullName() is the name plus the digest of that encoding.", "quantifier": "every finite sequence of operations", "why_tests_cant": "stale caches show only in particular interleavings", "anchors": ["ndn-cxx/data.cpp:Data::resetWire", "ndn-cxx/data.cpp:Data::getFullName", "ndn-cxx/data.cpp:Data setters"]}
{"id": "C25", "title": "Data/Interest evolvability: unknown elements", "statement": "Data and Interest decoding accept an encoding with unknown non-critical elements inserted after the name (in an Interest: before its ApplicationParameters, since later elements become parameters) and yield the same fields, reject it if an unknown element is critical, and reject recognised elements that are out of order or (other than the tolerated cases) repeated.", "quantifier": "every packet, every position and every unknown element", "why_tests_cant": "infinite combinations", "anchors": ["ndn-cxx/data.cpp:Data::wireDecode", "ndn-cxx/interest.cpp:Interest::wireDecode", "ndn-cxx/encoding/tlv.hpp:tlv::isCriticalType"]}
{"id": "C26", "title": "Data signed portion covers everything but the signature", "statement": "For every decoded Data the signed range reported by extractSignedRanges starts at the Name element and ends just before the SignatureValue element, so it covers all of name, MetaInfo, content and SignatureInfo byte for byte, and two packets with equal signed bytes have equal name, MetaInfo, content and SignatureInfo.", "quantifier": "every byte string that decodes as Data", "why_tests_cant": "hostile encodings", "anchors": ["ndn-cxx/data.cpp:Data::extractSignedRanges", "ndn-cxx/data.cpp:Data::wireDecode"]}
{"id": "C27", "title": "Full names identify Data (up to digest collisions)", "statement": "If the digest function does not collide on two encodings, Data with equal full names have equal encodings; the full name has the name as a prefix and one more component of type ImplicitSha256Digest and length 32.", "quantifier": "all pairs of Data", "why_tests_cant": "all pairs", "anchors": ["ndn-cxx/data.cpp:Data::getFullName"]}
{"id": "C28", "title": "Interest round trip", "statement": "For every Interest, decoding its wire encoding gives equal fields; defaults are restored for absent fields.", "quantifier": "all Interests", "why_tests_cant": "infinite set, field combinations", "anchors": ["ndn-cxx/interest.cpp:Interest::wireEncode", "ndn-cxx/interest.cpp:Interest::wireDecode"]}
{"id": "C29", "title": "Parameters digest stays consistent", "statement": "After any sequence of setName, setApplicationParameters, unsetApplicationParameters, setSignatureInfo, setSignatureValue calls that succeed, the name contains at most one parameters-digest component, contains one exactly when there are application parameters, and its value is the digest of the current parameters elements (isParametersDigestValid).", "quantifier": "every finite sequence of operations from a default Interest", "why_tests_cant": "histories; order of calls matters", "anchors": ["ndn-cxx/interest.cpp:Interest::setName", "ndn-cxx/interest.cpp:Interest::setApplicationParametersInternal", "ndn-cxx/interest.cpp:Interest::addOrReplaceParametersDigestComponent", "ndn-cxx/interest.cpp:Interest::isParametersDigestValid"]}
{"id": "C30", "title": "Interest-Data matching", "statement": "Interest::matchesData accepts exactly: same name; or same full name; or, with CanBePrefix, a Data whose name or full name has the Interest name as prefix, as specified by the packet format.", "quantifier": "all Interest/Data pairs", "why_tests_cant": "all pairs", "anchors": ["ndn-cxx/interest.cpp:Interest::matchesData"]}
{"id": "C31", "title": "Interest signed portion covers name, parameters and SignatureInfo", "statement": "For every signed Interest produced by the library, the signed ranges are the name components except a trailing parameters digest, and the parameters elements up to but excluding the signature value; every such byte is covered.", "quantifier": "every signed Interest, encoded or decoded", "why_tests_cant": "hostile element orders", "anchors": ["ndn-cxx/interest.cpp:Interest::extractSignedRanges"]}
{"id": "C32", "title": "lp::Packet is a typed multimap of fields with canonical encoding", "statement": "After any sequence of add/set/remove/clear, fields are encoded in canonical order (fragment last), has/count/get/list report exactly the stored occurrences, and decoding the encoding gives the same packet.", "quantifier": "every finite sequence of operations", "why_tests_cant": "histories", "anchors": ["ndn-cxx/lp/packet.cpp:Packet::wireEncode", "ndn-cxx/lp/packet.cpp:Packet::wireDecode", "ndn-cxx/lp/packet.hpp:Packet::add", "ndn-cxx/lp/packet.hpp:Packet::set", "ndn-cxx/lp/packet.hpp:Packet::remove"]}
{"id": "C33", "title": "lp::Packet decoding: unknown and misplaced fields", "statement": "Decoding accepts exactly sequences in which recognised fields are in order and not repeated unless repeatable, and unknown fields are ignorable; a bare network-layer packet decodes as a packet with only a fragment.", "quantifier": "every element sequence", "why_tests_cant": "infinite input space", "anchors": ["ndn-cxx/lp/packet.cpp:Packet::wireDecode", "ndn-cxx/lp/packet.cpp:FieldInfo"]}
{"id": "C34", "title": "Nack reasons: severity order and aggregation", "statement": "isLessSevere is a strict total order on reasons in which NONE is the most severe, and an unknown reason code is reported as NONE.", "quantifier": "all reasons (all 64-bit codes)", "why_tests_cant": "2^64 codes, triples", "anchors": ["ndn-cxx/lp/nack-header.cpp:isLessSevere", "ndn-cxx/lp/nack-header.cpp:NackHeader::getReason"]}
{"id": "C35", "title": "Scheduler executes each event at most once, in time order, never early", "statement": "For any history of schedule/cancel calls (also from inside callbacks) and timer firings, an event runs at most once, not before its expiry, in order of expiry time (insertion order among ties), never after it was cancelled, and every non-cancelled event due at a timer firing runs in that firing.", "quantifier": "every finite history of operations, clock advances and callbacks", "why_tests_cant": "unbounded interleavings", "anchors": ["ndn-cxx/util/scheduler.cpp:Scheduler::schedule", "ndn-cxx/util/scheduler.cpp:Scheduler::executeEvent", "ndn-cxx/util/scheduler.cpp:Scheduler::cancelImpl", "ndn-cxx/util/scheduler.cpp:Scheduler::scheduleNext"]}
{"id": "C36", "title": "Signal emission", "statement": "Emitting a signal calls exactly the handlers connected when emission starts and not disconnected before their turn, once each, in connection order; a handler may disconnect itself; a disconnected handler is never called again; single-shot handlers run once.", "quantifier": "every finite history of connect/disconnect/emit incl. from handlers", "why_tests_cant": "re-entrancy and histories", "anchors": ["ndn-cxx/util/signal/signal.hpp:Signal::operator()", "ndn-cxx/util/signal/signal.hpp:Signal::connect", "ndn-cxx/util/signal/connection.cpp"]}
{"id": "C37", "title": "RTO stays within its bounds", "statement": "After any sequence of RTT measurements and back-offs (at least one), the estimated RTO lies in [minRto, maxRto]; back-off multiplies it by the back-off factor up to the maximum.", "quantifier": "every finite sequence of samples and back-offs, every option set accepted", "why_tests_cant": "unbounded sequences", "anchors": ["ndn-cxx/util/rtt-estimator.cpp:RttEstimator::addMeasurement", "ndn-cxx/util/rtt-estimator.cpp:RttEstimator::backoffRto"]}
{"id": "C38", "title": "Segmenter partitions the input", "statement": "For every input and every positive maximum segment size, the segments are numbered 0..k consecutively, each has at most the maximum size, their contents concatenated are the input, there is at least one, and each carries FinalBlockId k; a zero size is rejected.", "quantifier": "every byte string and segment size", "why_tests_cant": "infinite set", "anchors": ["ndn-cxx/util/segmenter.cpp:Segmenter::segment"]}
{"id": "C39", "title": "SegmentFetcher delivers the complete content in order", "statement": "Whatever the order of arrivals, losses, Nacks, timeouts and validations, if the fetcher signals completion then the delivered buffer is the concatenation of the validated contents of segments 0..FinalBlockId in order; the in-order mode delivers each segment exactly once in order; after completion or error nothing more is signalled.", "quantifier": "every network behaviour (interleaving of Data, Nack, timeout, validation results)", "why_tests_cant": "unbounded interleavings", "anchors": ["ndn-cxx/util/segment-fetcher.cpp:SegmentFetcher::afterValidationSuccess", "ndn-cxx/util/segment-fetcher.cpp:SegmentFetcher::finalizeFetch", "ndn-cxx/util/segment-fetcher.cpp:SegmentFetcher::checkAllSegmentsReceived"]}
{"id": "C40", "title": "Hex and transform chains are independent of chunking", "statement": "hexDecode(hexEncode(x)) = x for every x, and feeding a decoder/encoder its input in any division into chunks gives the same output as feeding it at once; decoding fails exactly on non-hex characters or odd total length.", "quantifier": "every byte string and every division into chunks", "why_tests_cant": "chunk boundaries are combinatorial", "anchors": ["ndn-cxx/security/transform/hex-encode.cpp", "ndn-cxx/security/transform/hex-decode.cpp", "ndn-cxx/security/transform/transform-base.cpp"]}
{"id": "C41", "title": "Name regex matching means what the pattern says", "statement": "A name regex accepts exactly the names in the language denoted by the pattern (concatenation, sets, repetition, anchors, back-reference groups), and matching terminates for every pattern and name.", "quantifier": "every pattern and every name", "why_tests_cant": "infinite set; nullable repetitions", "anchors": ["ndn-cxx/util/regex/regex-matcher.cpp:RegexMatcher::recursiveMatch", "ndn-cxx/util/regex/regex-repeat-matcher.cpp:RegexRepeatMatcher::match", "ndn-cxx/util/regex/regex-top-matcher.cpp:RegexTopMatcher::match"]}
{"id": "C42", "title": "In-memory storage never exceeds its limit", "statement": "For every sequence of insert, find, erase and setCapacity calls on an in-memory storage with limit L, the number of stored packets never exceeds the capacity, which never exceeds L, and no operation takes an entry from an empty free pool.", "quantifier": "every limit, policy and operation sequence", "why_tests_cant": "histories of unbounded length", "anchors": ["ndn-cxx/ims/in-memory-storage.cpp:InMemoryStorage::insert", "ndn-cxx/ims/in-memory-storage.cpp:InMemoryStorage::setCapacity", "ndn-cxx/ims/in-memory-storage.cpp:InMemoryStorage::erase"]}
{"id": "C43", "title": "In-memory storage lookup is sound and complete", "statement": "find(Interest) returns a stored packet that matches the Interest (name, CanBePrefix) and is fresh when MustBeFresh is set; it returns nothing only if no stored packet qualifies; find(Name) returns the first stored packet in canonical order whose full name has the given prefix.", "quantifier": "every store content and every Interest", "why_tests_cant": "all store contents", "anchors": ["ndn-cxx/ims/in-memory-storage.cpp:InMemoryStorage::find", "ndn-cxx/ims/in-memory-storage.cpp:InMemoryStorage::selectChild", "ndn-cxx/ims/in-memory-storage.cpp:InMemoryStorage::findNextFresh"]}
{"id": "C44", "title": "Eviction policies", "statement": "FIFO evicts the packet inserted longest ago, LRU the one used longest ago, LFU one with the fewest uses; persistent never evicts; packets not evicted or erased remain retrievable.", "quantifier": "every operation sequence", "why_tests_cant": "histories", "anchors": ["ndn-cxx/ims/in-memory-storage-fifo.cpp", "ndn-cxx/ims/in-memory-storage-lru.cpp", "ndn-cxx/ims/in-memory-storage-lfu.cpp", "ndn-cxx/ims/in-memory-storage-persistent.hpp"]}
{"id": "C45", "title": "In-memory storage erase", "statement": "erase(prefix) removes exactly the packets whose name has the prefix, erase(fullName,false) exactly the packet with that full name; all others remain.", "quantifier": "every store content and prefix", "why_tests_cant": "all store contents", "anchors": ["ndn-cxx/ims/in-memory-storage.cpp:InMemoryStorage::erase"]}
{"id": "C46", "title": "Freshness timers refer to the right packet", "statement": "A packet becomes stale exactly when its MustBeFresh window elapses; the timer of a packet that was erased or evicted never affects a packet later stored in the recycled entry.", "quantifier": "every history of insert/erase/evict and timer firings", "why_tests_cant": "recycling races are rare interleavings", "anchors": ["ndn-cxx/ims/in-memory-storage-entry.cpp", "ndn-cxx/ims/in-memory-storage.cpp:InMemoryStorage::insert"]}
{"id": "C47", "title": "At most one outcome per expressed Interest", "statement": "For each expressed Interest at most one of the Data, Nack and timeout callbacks is invoked, at most once in total, and none after it is cancelled; every Interest still pending at its lifetime gets a timeout.", "quantifier": "every history of expressInterest, cancel, incoming packets and timer expirations", "why_tests_cant": "interleavings", "anchors": ["ndn-cxx/impl/face-impl.hpp:Face::Impl", "ndn-cxx/impl/pending-interest.hpp:PendingInterest", "ndn-cxx/impl/record-container.hpp:RecordContainer"]}
{"id": "C48", "title": "Data satisfies exactly the matching pending Interests", "statement": "An incoming or locally produced Data removes exactly the pending Interests it matches, invokes the Data callback of each application-originated one once, and a Data put by the application is sent to the forwarder exactly when some forwarder-originated pending Interest matches it or no application-originated one does.", "quantifier": "every table content and every Data", "why_tests_cant": "all table contents", "anchors": ["ndn-cxx/impl/face-impl.hpp:Face::Impl::satisfyPendingInterests", "ndn-cxx/impl/face-impl.hpp:Face::Impl::putData"]}
{"id": "C49", "title": "Nack aggregation", "statement": "A pending Interest forwarded to n destinations is reported as Nacked only after all n have Nacked it, and with the least severe of the reasons received.", "quantifier": "every number of destinations and every order of Nacks", "why_tests_cant": "orders and counts", "anchors": ["ndn-cxx/impl/pending-interest.hpp:PendingInterest::recordNack", "ndn-cxx/impl/face-impl.hpp:Face::Impl::nackPendingInterests"]}
{"id": "C50", "title": "Interest dispatch to filters", "statement": "An Interest is delivered exactly to those filters that match its name and, for application-originated Interests, allow loopback; each once, none after the filter is unset.", "quantifier": "every filter table and history", "why_tests_cant": "histories", "anchors": ["ndn-cxx/impl/face-impl.hpp:Face::Impl::dispatchInterest", "ndn-cxx/impl/interest-filter-record.hpp:InterestFilterRecord::doesMatch"]}
{"id": "C51", "title": "Validation success implies a trust chain", "statement": "If validation of a packet succeeds (and the policy did not waive certificates), there is a chain of certificates from a trust anchor to the packet in which each certificate was signature-verified with the next one's key, was within its validity period when processed, and each key use was authorised by the policy.", "quantifier": "every policy, certificate graph, store content and fetch behaviour (also hostile)", "why_tests_cant": "adversarial networks", "anchors": ["ndn-cxx/security/validator.cpp:Validator", "ndn-cxx/security/validation-state.cpp:ValidationState"]}
{"id": "C52", "title": "Validation terminates with exactly one outcome", "statement": "Every validation invokes exactly one of the success and failure callbacks exactly once, and requests at most the configured maximum number of certificates, whatever the network returns.", "quantifier": "every policy and fetch behaviour", "why_tests_cant": "cyclic or infinite certificate graphs", "anchors": ["ndn-cxx/security/validator.cpp:Validator::requestCertificate", "ndn-cxx/security/validation-state.cpp"]}
{"id": "C53", "title": "Signed Interest replay protection", "statement": "With timestamp, sequence number or nonce checking enabled, sequentially validated Interests accepted under the same key have strictly increasing timestamps / sequence numbers, respectively no repeated nonce within the remembered window.", "quantifier": "every history of Interests (accepted or rejected), keys and clock values", "why_tests_cant": "histories", "anchors": ["ndn-cxx/security/validation-policy-signed-interest.cpp:ValidationPolicySignedInterest"]}
{"id": "C54", "title": "Command Interest replay protection", "statement": "Command Interests accepted under the same key have strictly increasing timestamps within the record lifetime, and the first accepted one is within the grace period of the clock.", "quantifier": "every history of commands, keys and clock values", "why_tests_cant": "histories", "anchors": ["ndn-cxx/security/validation-policy-command-interest.cpp:ValidationPolicyCommandInterest"]}
{"id": "C55", "title": "Certificate cache never returns an expired certificate", "statement": "For any history of insertions, look-ups and clock values, a certificate returned by the cache was inserted, is not past its notAfter, and was inserted no longer ago than the maximum lifetime; look-up by prefix or Interest finds one whenever one is cached and unexpired.", "quantifier": "every history", "why_tests_cant": "histories", "anchors": ["ndn-cxx/security/certificate-cache.cpp:CertificateCache"]}
{"id": "C56", "title": "Validity period arithmetic", "statement": "isValid(t) holds exactly for notBefore <= t <= notAfter at one-second resolution (notBefore rounded up, notAfter rounded down, so the encoded period never extends the requested one), and decode(encode(p)) = p.", "quantifier": "all time points", "why_tests_cant": "2^63 time points", "anchors": ["ndn-cxx/security/validity-period.cpp:ValidityPeriod"]}
{"id": "C57", "title": "PIB default identity/key/certificate stay coherent", "statement": "After any sequence of PIB operations the default identity, key and certificate, when set, exist and belong to their parent; removing an object that is not the default does not change the default; removing a parent removes its children.", "quantifier": "every operation sequence", "why_tests_cant": "histories", "anchors": ["ndn-cxx/security/pib/impl/pib-memory.cpp:PibMemory", "ndn-cxx/security/pib/impl/pib-sqlite3.cpp:PibSqlite3"]}
{"id": "C58", "title": "Signed Interest timestamps are unique and increasing", "statement": "Successive timestamps generated by one InterestSigner are strictly increasing whatever the system clock does.", "quantifier": "every sequence of clock readings (also going backwards)", "why_tests_cant": "clock histories", "anchors": ["ndn-cxx/security/interest-signer.cpp:InterestSigner::getFreshTimestamp"]}
{"id": "C59", "title": "Validator configuration: first matching rule decides", "statement": "Under a configured policy a packet is allowed only if the first rule whose filters all match accepts it; if no rule matches it is rejected; with the \"any\" trust anchor everything is accepted.", "quantifier": "every rule list and packet", "why_tests_cant": "all rule lists", "anchors": ["ndn-cxx/security/validation-policy-config.cpp:ValidationPolicyConfig::checkPolicy", "ndn-cxx/security/validator-config/rule.cpp:Rule"]}
{"id": "C60", "title": "Name relation and hierarchy checks", "statement": "The name-relation checks equal/is-prefix-of/is-strict-prefix-of, and the simple-hierarchy policy, accept exactly when the stated relation between signer identity and packet name holds.", "quantifier": "all names", "why_tests_cant": "all pairs of names", "anchors": ["ndn-cxx/security/validator-config/name-relation.cpp:checkNameRelation", "ndn-cxx/security/validation-policy-simple-hierarchy.cpp"]}
{"id": "C61", "title": "Trust anchors: groups are independent", "statement": "A certificate is a trust anchor exactly while some group lists it; refreshing or changing one group does not drop certificates listed by another.", "quantifier": "every history of group updates", "why_tests_cant": "histories", "anchors": ["ndn-cxx/security/trust-anchor-container.cpp", "ndn-cxx/security/trust-anchor-group.cpp"]}
{"id": "C62", "title": "ControlParameters round trip and flag bits", "statement": "Decoding encoded ControlParameters gives the same present fields and values; setFlagBit(b,v) makes getFlagBit(b)=v and leaves every other bit as it was, for every b below 64.", "quantifier": "all field combinations and all 64 bits", "why_tests_cant": "2^16 presence combinations times values", "anchors": ["ndn-cxx/mgmt/nfd/control-parameters.cpp:ControlParameters"]}
{"id": "C63", "title": "Control command validation", "statement": "A command format accepts a parameter set exactly when every required field is present and every present field is required or optional (and Flags/Mask come together where both optional); applying defaults makes documented fields present without changing those given.", "quantifier": "all parameter sets, all commands", "why_tests_cant": "all presence combinations", "anchors": ["ndn-cxx/mgmt/nfd/control-command.cpp"]}
{"id": "C64", "title": "StatusDatasetContext segmentation", "statement": "For any sequence of append calls followed by end, the segments sent are numbered consecutively from 0, contain the appended bytes in order and complete, each at most the maximum payload, exactly the last is marked final; nothing is sent after end or reject.", "quantifier": "every sequence of appends of any size", "why_tests_cant": "unbounded", "anchors": ["ndn-cxx/mgmt/status-dataset-context.cpp:StatusDatasetContext"]}
{"id": "C65", "title": "Dispatcher prefixes are non-overlapping", "statement": "After any history of successful registrations no top-level prefix or handler prefix is a prefix of another, so an Interest reaches at most one handler; overlapping registration is rejected.", "quantifier": "every history of registrations", "why_tests_cant": "histories", "anchors": ["ndn-cxx/mgmt/dispatcher.cpp:Dispatcher::addTopPrefix", "ndn-cxx/mgmt/dispatcher.cpp:Dispatcher::checkPrefix"]}
{"id": "C66", "title": "Stream transport re-frames packets independently of segmentation", "statement": "However the bytes of a sequence of TLV packets (each at most the maximum packet size) are divided into socket reads, the receive callback gets exactly those packets in order.", "quantifier": "every packet sequence and every division into reads", "why_tests_cant": "read boundaries are combinatorial", "anchors": ["ndn-cxx/transport/detail/stream-transport-impl.hpp:StreamTransportImpl::asyncReceive"]}
{"id": "C67", "title": "Stream transport sends in order, exactly once, and does not stall", "statement": "Packets passed to send are written to the socket in order, each at most once, and while connected every queued packet is eventually written, across pause and resume.", "quantifier": "every history of send/connect/pause/resume/close and completions", "why_tests_cant": "interleavings", "anchors": ["ndn-cxx/transport/detail/stream-transport-impl.hpp:StreamTransportImpl::send"]}
{"id": "C68", "title": "Notification subscriber requests consecutive notifications", "statement": "After receiving notification n the subscriber requests exactly n+1; decoding errors, Nacks and timeouts fall back to the initial Interest; after stop nothing is requested or delivered; back-off doubles on repeated Nacks of the same sequence number.", "quantifier": "every history of Data, Nack, timeout and stop", "why_tests_cant": "histories", "anchors": ["ndn-cxx/util/notification-subscriber.cpp"]}
{"id": "C69", "title": "Link delegations", "statement": "A Link built by addDelegation has no duplicate delegations, keeps insertion order, encodes them so that decoding gives the same list; removeDelegation removes all occurrences and reports whether any existed.", "quantifier": "every operation sequence", "why_tests_cant": "histories", "anchors": ["ndn-cxx/link.cpp:Link"]}
{"id": "C70", "title": "Prefix announcement and metadata object structure", "statement": "A prefix announcement or metadata object is accepted exactly when the packet name ends with the keyword, version and segment components and the content is as specified, and encoding then decoding returns the same announced name, expiration and validity period / versioned name.", "quantifier": "all packets", "why_tests_cant": "infinite set", "anchors": ["ndn-cxx/prefix-announcement.cpp", "ndn-cxx/metadata-object.cpp"]}
{"id": "C71", "title": "Block equality and size reflect the content", "statement": "At any time, whether or not encode() has been called, two Blocks compare equal exactly when their types and the TLV-VALUEs they stand for are equal, and size() is the size of the encoding.", "quantifier": "all Block objects, encoded or not, built by any sequence of calls", "why_tests_cant": "depends on the call history (before/after encode) and on arbitrary nested contents", "anchors": ["ndn-cxx/encoding/block.cpp:Block::equals", "ndn-cxx/encoding/block.cpp:Block::push_back", "ndn-cxx/encoding/block.hpp:Block::size"]}
{"id": "C72", "title": "Decoding a Name yields valid components", "statement": "Name(block) either fails or yields a name whose components all pass component validation; it accepts exactly a Name element whose value is a sequence of well-formed TLV elements, and these become the components.", "quantifier": "all byte strings", "why_tests_cant": "ranges over every nesting and every component type and length", "anchors": ["ndn-cxx/name.cpp:Name::wireDecode", "ndn-cxx/name-component.cpp:Component::ensureValid"]}
{"id": "C73", "title": "Interest encoding reflects its current fields", "statement": "Whatever calls were made before, the encoding returned by Interest::wireEncode() is well formed and decodes to the fields the object then has.", "quantifier": "every finite sequence of setter, encode and decode calls, including calls that throw", "why_tests_cant": "depends on the call history and on the exception points inside encode/decode", "anchors": ["ndn-cxx/interest.cpp:Interest::wireEncode", "ndn-cxx/interest.cpp:Interest::wireDecode"]}
{"id": "C74", "title": "Interest setters are all-or-nothing", "statement": "A setter of Interest that throws leaves the object unchanged.", "quantifier": "all Interests, all setters and arguments", "why_tests_cant": "ranges over all object states and the position of every exception", "anchors": ["ndn-cxx/interest.cpp:Interest::setSignatureInfo", "ndn-cxx/interest.cpp:Interest::setSignatureValueInternal", "ndn-cxx/interest.cpp:Interest::setName"]}
{"id": "C75", "title": "Signing an Interest signs what verification extracts", "statement": "When KeyChain::sign signs an Interest, the octets given to the signer are exactly those extractSignedRanges() returns on the signed Interest.", "quantifier": "all Interests that can be signed, with any existing parameters", "why_tests_cant": "the signature value changes the parameters and the name digest between the two extractions; ranges over all parameter lists", "anchors": ["ndn-cxx/security/key-chain.cpp:KeyChain::sign", "ndn-cxx/interest.cpp:Interest::setSignatureValueInternal", "ndn-cxx/interest.cpp:Interest::extractSignedRanges"]}
{"id": "C76", "title": "The parameters digest covers all octets from ApplicationParameters on", "statement": "If an Interest with parameters is accepted with digest checking, the digest component of its name is the digest of every octet from the ApplicationParameters element to the end of the Interest.", "quantifier": "all byte strings accepted as Interest", "why_tests_cant": "ranges over all element sequences, including repeated and ignored ones", "anchors": ["ndn-cxx/interest.cpp:Interest::wireDecode", "ndn-cxx/interest.cpp:Interest::computeParametersDigest"]}
{"id": "C77", "title": "Interest setters set exactly their field", "statement": "Each Interest setter gives its field the argument value and changes no other field; setSignatureInfo and setSignatureValue replace the existing element or insert it (info before the first value, value right after the first info) and keep all other parameters in order.", "quantifier": "all Interests and arguments", "why_tests_cant": "ranges over all parameter lists, including decoded ones with extra elements", "anchors": ["ndn-cxx/interest.cpp:Interest setters", "ndn-cxx/interest.cpp:Interest::setSignatureInfo", "ndn-cxx/interest.cpp:Interest::setSignatureValueInternal"]}
{"id": "C78", "title": "Iterating over an in-memory storage", "statement": "Iterating from begin() to end() visits every stored packet exactly once, in canonical order of full names, whatever was inserted, found, evicted or erased before.", "quantifier": "all histories of a storage", "why_tests_cant": "ranges over all sets of packets and all histories", "anchors": ["ndn-cxx/ims/in-memory-storage.cpp:InMemoryStorage::begin", "ndn-cxx/ims/in-memory-storage.hpp:InMemoryStorage::const_iterator"]}
{"id": "C79", "title": "SegmentFetcher does not hang", "statement": "Until it has signalled completion or an error, a running SegmentFetcher always has a retransmission timer running; when one fires after the configured maximum time without progress it signals an error and stops.", "quantifier": "all finite sequences of arrivals, losses, Nacks, timeouts and window sizes, all configurations", "why_tests_cant": "hanging is the absence of an event after an arbitrary interleaving of losses, retransmissions and window sizes", "anchors": ["ndn-cxx/util/segment-fetcher.cpp:SegmentFetcher::fetchSegmentsInWindow", "ndn-cxx/util/segment-fetcher.cpp:SegmentFetcher::afterNackOrTimeout"]}
{"id": "C80", "title": "Prefix registration", "statement": "Each prefix registration gets exactly one of its success and failure callbacks once its command is answered; the filter given with it is active from the successful answer until it is unregistered and never before; unregistering an unknown prefix fails; each unregistration gets exactly one callback.", "quantifier": "all histories of registrations, unregistrations, answers, failures, and Face shutdowns", "why_tests_cant": "ranges over all interleavings of calls and answers", "anchors": ["ndn-cxx/impl/face-impl.hpp:Face::Impl::registerPrefix", "ndn-cxx/impl/face-impl.hpp:Face::Impl::unregisterPrefix"]}
{"id": "C81", "title": "PIB handles answer as documented", "statement": "A handle to an identity or key stands for one identity or key, is the same however it was obtained, and expires exactly when that is removed or replaced; every call on the PIB and on valid handles is answered from the current contents of the PIB, calls on expired handles fail and change nothing, and no call fails an assertion.", "quantifier": "all finite sequences of calls on a PIB, its identities and its keys, over both back ends", "why_tests_cant": "the caches of containers, defaults and certificates depend on the whole history of calls", "anchors": ["ndn-cxx/security/pib/pib.cpp:Pib", "ndn-cxx/security/pib/identity.cpp:Identity", "ndn-cxx/security/pib/key.cpp:Key", "ndn-cxx/security/pib/identity-container.cpp", "ndn-cxx/security/pib/key-container.cpp", "ndn-cxx/security/pib/certificate-container.cpp"]}
{"id": "C82", "title": "A dispatcher processes commands and dataset requests as documented", "statement": "A command handler runs only after the authorization function was given that very request and accepted it, with parameters that were parsed from the Interest, are valid and have their defaults filled in; malformed commands are ignored, rejected ones get no answer or status 403, invalid ones status 400, and every response is Data with the name of the Interest. Dataset requests are answered from the storage or authorized and handed to their handler, whose segments are stored, the first one also being sent. No Interest causes memory errors.", "quantifier": "all finite sequences of registrations, Interests, authorization results, responses and notifications, in any interleaving", "why_tests_cant": "the answers depend on the whole history and on adversarial Interests", "anchors": ["ndn-cxx/mgmt/dispatcher.cpp:Dispatcher::processCommand", "ndn-cxx/mgmt/dispatcher.cpp:Dispatcher::processAuthorizedCommand", "ndn-cxx/mgmt/dispatcher.cpp:Dispatcher::processStatusDatasetInterest", "ndn-cxx/mgmt/dispatcher.hpp:Dispatcher::addControlCommand"]}
{"id": "C83", "title": "Notifications are numbered consecutively", "statement": "The notifications posted in one stream get the sequence numbers 0, 1, 2 and so on, so that no two have the same name; nothing is posted unless there is exactly one top-level prefix.", "quantifier": "all finite sequences of registrations, removals and posts", "why_tests_cant": "ranges over all histories of a dispatcher", "anchors": ["ndn-cxx/mgmt/dispatcher.cpp:Dispatcher::postNotification", "ndn-cxx/mgmt/dispatcher.cpp:Dispatcher::addNotificationStream"]}
{"id": "C84", "title": "Closing or pausing a transport takes effect", "statement": "After close() has returned, nothing is delivered, written or thrown any more and the transport stays closed; after pause() has returned, the receive callback is not invoked until resume(). No order of completions makes the transport misbehave.", "quantifier": "all finite sequences of calls, completions and handler runs, in any order the asynchronous operations allow", "why_tests_cant": "depends on completions that race with the call", "anchors": ["ndn-cxx/transport/detail/stream-transport-impl.hpp:StreamTransportImpl::close", "ndn-cxx/transport/detail/stream-transport-impl.hpp:StreamTransportImpl::pause", "ndn-cxx/transport/detail/stream-transport-with-resolver-impl.hpp", "ndn-cxx/transport/unix-transport.cpp", "ndn-cxx/transport/tcp-transport.cpp"]}
{"id": "C85", "title": "Control responses survive transmission", "statement": "A response built by any calls of its setters, encoded and decoded, has the same code, text and body; decoding accepts exactly the elements that hold a code, a text and at most one body; each setter changes its own field only; encoding after any history gives the current fields.", "quantifier": "all responses, all elements, all histories of setters, encodings and decodings", "why_tests_cant": "ranges over all inputs and over the histories that fill or clear the cached encoding", "anchors": ["ndn-cxx/mgmt/control-response.cpp:ControlResponse::wireEncode", "ndn-cxx/mgmt/control-response.cpp:ControlResponse::wireDecode", "ndn-cxx/mgmt/control-response.hpp:ControlResponse"]}
{"id": "C86", "title": "Status and notification items survive transmission", "statement": "Each of ChannelStatus, CsInfo, FaceEventNotification, FaceStatus, ForwarderStatus, NextHopRecord, FibEntry, Route, RibEntry and StrategyChoice built by any calls of its setters, encoded and decoded, shows the same values; decoding accepts exactly the elements of the published format; setters change their own field only; a rejected element does not change what is later encoded.", "quantifier": "all items, all elements, all histories of setters, encodings and decodings", "why_tests_cant": "ranges over all inputs and over the histories that fill or clear the cached encoding", "anchors": ["ndn-cxx/mgmt/nfd/channel-status.cpp", "ndn-cxx/mgmt/nfd/cs-info.cpp", "ndn-cxx/mgmt/nfd/face-event-notification.cpp", "ndn-cxx/mgmt/nfd/face-status.cpp", "ndn-cxx/mgmt/nfd/forwarder-status.cpp", "ndn-cxx/mgmt/nfd/fib-entry.cpp", "ndn-cxx/mgmt/nfd/rib-entry.cpp", "ndn-cxx/mgmt/nfd/strategy-choice.cpp"]}
{"id": "C87", "title": "A face query filter asks for what was set", "statement": "A filter built by any calls of its setters, encoded and decoded, restricts the same fields to the same values; every restriction in an accepted element is in the decoded filter; a filter is empty exactly if nothing is restricted.", "quantifier": "all filters, all elements, all histories", "why_tests_cant": "ranges over all inputs and orders of elements", "anchors": ["ndn-cxx/mgmt/nfd/face-query-filter.cpp:FaceQueryFilter::wireEncode", "ndn-cxx/mgmt/nfd/face-query-filter.cpp:FaceQueryFilter::wireDecode", "ndn-cxx/mgmt/nfd/face-query-filter.cpp:FaceQueryFilter::empty"]}
{"id": "C88", "title": "Status datasets are parsed completely or rejected", "statement": "Parsing the payload of a dataset gives the items whose encodings, one after another, are the payload, and throws tlv::Error if there are none such; the concatenated encodings of items are parsed to these items; different datasets have different names, and a face query can be read back from the name it is asked with.", "quantifier": "all payloads, all lists of items, all datasets", "why_tests_cant": "ranges over all payloads, including truncated and malformed ones", "anchors": ["ndn-cxx/mgmt/nfd/status-dataset.cpp:parseDatasetVector", "ndn-cxx/mgmt/nfd/status-dataset.hpp"]}
{"id": "C89", "title": "FIB and RIB entries are equal if they have the same records in any order", "statement": "Two FIB (RIB) entries compare equal exactly if they have the same name and the same next hops (routes), each the same number of times, in any order; the comparison is an equivalence.", "quantifier": "all pairs of entries", "why_tests_cant": "ranges over all permutations of lists of any length", "anchors": ["ndn-cxx/mgmt/nfd/fib-entry.cpp:operator==", "ndn-cxx/mgmt/nfd/rib-entry.cpp:operator=="]}
{"id": "C90", "title": "Face flag bits", "statement": "setFlagBit changes the given bit of the flags and no other, getFlagBit reads it, and bits above 63 are refused.", "quantifier": "all flag words and bit numbers", "why_tests_cant": "ranges over all 64 bits and all words", "anchors": ["ndn-cxx/mgmt/nfd/face-traits.hpp:FaceTraits::setFlagBit", "ndn-cxx/mgmt/nfd/face-traits.hpp:FaceTraits::getFlagBit"]}
{"id": "C91", "title": "An NFD controller reports what became of each command and dataset request", "statement": "For each command one Interest is sent and at most one of the callbacks is called, once: success exactly if the validated answer to this command is a response below the error codes whose parameters the command allows, with these parameters; otherwise failure with the code of the server, timeout, Nack, validation failure or malformed response. For each dataset request one callback is called with the parsed items or the code of the error. Nothing is undefined when the Controller is destroyed.", "quantifier": "all finite sequences of commands, dataset requests, answers, Nacks, timeouts, validation results and destruction, in any interleaving", "why_tests_cant": "ranges over all interleavings and over adversarial answers", "anchors": ["ndn-cxx/mgmt/nfd/controller.cpp:Controller::startCommand", "ndn-cxx/mgmt/nfd/controller.cpp:Controller::processCommandResponse", "ndn-cxx/mgmt/nfd/controller.cpp:Controller::processValidatedCommandResponse", "ndn-cxx/mgmt/nfd/controller.cpp:Controller::fetchDataset", "ndn-cxx/mgmt/nfd/controller.hpp:Controller::processDatasetResponse"]}
{"id": "C92", "title": "Signing strings", "statement": "A string is accepted as a SigningInfo exactly if it has one of the documented forms, and the result asks for just that signer; a SigningInfo printed and read back asks for the same signer.", "quantifier": "all strings, all SigningInfo values", "why_tests_cant": "ranges over all strings and all names", "anchors": ["ndn-cxx/security/signing-info.cpp:SigningInfo::SigningInfo", "ndn-cxx/security/signing-info.cpp:operator<<"]}
{"id": "C93", "title": "KeyChain::sign signs with the key asked for", "statement": "After any history of calls on a KeyChain, signing a Data with a SigningInfo uses the key it denotes (that of the handle, of the name, of the certificate, the default key of the identity or of the default identity), puts the name of the certificate or key into the KeyLocator, and the signature covers the signed portion as a receiver finds it and verifies with the public key in the PIB; without such a key InvalidSigningInfoError is thrown. Nothing stored changes.", "quantifier": "all histories of calls over both PIB back ends, all packets and SigningInfo values, any cryptographic library whose signatures verify", "why_tests_cant": "ranges over all histories and all combinations of handles, names and defaults", "anchors": ["ndn-cxx/security/key-chain.cpp:KeyChain::sign", "ndn-cxx/security/key-chain.cpp:KeyChain::prepareSignatureInfo"]}
{"id": "C94", "title": "The PIB and the TPM of a KeyChain belong together", "statement": "After any history of calls every key of the PIB has its private key in the TPM and signatures made with it verify with its public key, and every certificate is for the public key of its key; creating an identity that exists changes nothing; deleting removes what belongs to the key or identity and nothing else; importing a SafeBag succeeds as a whole or changes nothing; a failing call loses nothing.", "quantifier": "all histories of the 16 calls, over both PIB back ends", "why_tests_cant": "ranges over all histories, including calls that fail in the middle", "anchors": ["ndn-cxx/security/key-chain.cpp:KeyChain::createIdentity", "ndn-cxx/security/key-chain.cpp:KeyChain::createKey", "ndn-cxx/security/key-chain.cpp:KeyChain::deleteKey", "ndn-cxx/security/key-chain.cpp:KeyChain::deleteIdentity", "ndn-cxx/security/key-chain.cpp:KeyChain::importSafeBag", "ndn-cxx/security/tpm/tpm.cpp"]}
{"id": "C95", "title": "A crash leaves a usable KeyChain", "statement": "If the process stops between two accesses to the PIB or the TPM during any call, a KeyChain opened afterwards on what was stored can use every key in its PIB, and behaves as specified from there on.", "quantifier": "all histories, all crash points between accesses to the two stores", "why_tests_cant": "ranges over all crash points of all histories", "anchors": ["ndn-cxx/security/key-chain.cpp:KeyChain::createKey", "ndn-cxx/security/key-chain.cpp:KeyChain::deleteKey", "ndn-cxx/security/key-chain.cpp:KeyChain::deleteIdentity", "ndn-cxx/security/key-chain.cpp:KeyChain::importSafeBag"]}
{"id": "C96", "title": "Certificates made by a KeyChain", "statement": "makeCertificate gives a Data packet that is a certificate of the given key: named after it with the issuer and version asked for, with its public key as content, and a signature that verifies with the public key of the issuer; it refuses a freshness period that is not positive and requests without a public key. A key made by createKey has a certificate signed with itself.", "quantifier": "all histories, keys, requests and options", "why_tests_cant": "ranges over all histories and options", "anchors": ["ndn-cxx/security/key-chain.cpp:KeyChain::makeCertificate", "ndn-cxx/security/key-chain.cpp:KeyChain::selfSign"]}
{"id": "C97", "title": "FaceUri texts", "statement": "A text is accepted as a FaceUri exactly if it has the documented form, its parts are determined by the text, and a FaceUri made from an endpoint, an Ethernet address, an interface name, a file descriptor or a path, printed and read back, is the same FaceUri; different FaceUris that were read have different texts.", "quantifier": "all texts, all FaceUris, any IP address library that reads back what it prints", "why_tests_cant": "ranges over all texts and all addresses", "anchors": ["ndn-cxx/net/face-uri.cpp:FaceUri::parse", "ndn-cxx/net/face-uri.cpp:operator<<", "ndn-cxx/net/face-uri.cpp:FaceUri::fromFd", "ndn-cxx/net/face-uri.cpp:FaceUri::fromDev", "ndn-cxx/net/face-uri.cpp:FaceUri::fromUdpDev"]}
{"id": "C98", "title": "Comparison of FaceUris", "statement": "Equality of FaceUris is equality of scheme, host, port and path together with bracketing; the order is a strict total order on them.", "quantifier": "all FaceUris", "why_tests_cant": "ranges over all pairs and triples", "anchors": ["ndn-cxx/net/face-uri.hpp:FaceUri::operator==", "ndn-cxx/net/face-uri.hpp:FaceUri::operator<"]}
{"id": "C99", "title": "Texts of Ethernet addresses", "statement": "An Ethernet address printed and read back is the same address, different addresses have different texts, and exactly the texts of six hexadecimal octets separated by one and the same separator are accepted.", "quantifier": "all addresses, both separators, all texts", "why_tests_cant": "ranges over all texts", "anchors": ["ndn-cxx/net/ethernet.cpp:Address::toString", "ndn-cxx/net/ethernet.cpp:Address::fromString"]}
{"id": "C100", "title": "Canonical FaceUris", "statement": "The result of canonization is canonical; a canonical FaceUri is its own canonical form; a canonical UDP or TCP FaceUri consists of the scheme of its address family, the text of the address, and a port; a FaceUri whose host is an address canonizes to the FaceUri of that address and its given or default port, and fails exactly for an address of the other family, a TCP multicast address or an invalid port; two FaceUris for the same endpoint have the same canonical form.", "quantifier": "all FaceUris, all results of name resolution, any IP address library that reads back what it prints", "why_tests_cant": "ranges over all FaceUris and all addresses", "anchors": ["ndn-cxx/net/face-uri.cpp:FaceUri::isCanonical", "ndn-cxx/net/face-uri.cpp:FaceUri::canonize", "ndn-cxx/net/face-uri.cpp:IpHostCanonizeProvider", "ndn-cxx/net/face-uri.cpp:EtherCanonizeProvider", "ndn-cxx/net/face-uri.cpp:DevCanonizeProvider"]}
{"id": "C101", "title": "Canonization reports once", "statement": "Canonization calls one of its two callbacks, exactly once, after the name was resolved or the timeout expired, in whatever order these happen; a resolved address is the first one of the family asked for.", "quantifier": "all FaceUris, all interleavings of the end of the resolution, its delivery and the timeout", "why_tests_cant": "ranges over all schedules", "anchors": ["ndn-cxx/net/dns.cpp:Resolver", "ndn-cxx/net/dns.cpp:asyncResolve", "ndn-cxx/net/face-uri.cpp:IpHostCanonizeProvider::canonize"]}
{"id": "C102", "title": "AdditionalDescription", "statement": "Decoding accepts exactly the elements made of entries, each a key and a value, and of elements that may be ignored; each key then has the value of its last entry and iteration goes through the keys in increasing order; set changes one key; after any history of calls the encoding is that of the current entries, and decoding it gives them back.", "quantifier": "all elements, all histories of set, wireEncode and wireDecode", "why_tests_cant": "ranges over all histories of calls and all elements", "anchors": ["ndn-cxx/security/additional-description.cpp:AdditionalDescription::wireDecode", "ndn-cxx/security/additional-description.cpp:AdditionalDescription::wireEncode", "ndn-cxx/security/additional-description.cpp:AdditionalDescription::set"]}
{"id": "C103", "title": "SafeBag", "statement": "A SafeBag encoded and decoded has the same certificate and encrypted key; exactly a Data packet followed by an EncryptedKey, and nothing else, is accepted; the certificate taken out of a bag is octet for octet the one put in, so that its signature still verifies.", "quantifier": "all certificates, keys and elements", "why_tests_cant": "ranges over all packets and elements", "anchors": ["ndn-cxx/security/safe-bag.cpp:SafeBag::wireEncode", "ndn-cxx/security/safe-bag.cpp:SafeBag::wireDecode"]}
{"id": "C104", "title": "Certificates as Data packets", "statement": "A Data packet is accepted as a certificate exactly if its name is an identity followed by KEY, a key id, an issuer and a version, its content type is Key and its freshness period positive; the accessors return these parts, the name determines them, and an extension is the first element of its type.", "quantifier": "all Data packets and names", "why_tests_cant": "ranges over all names and packets", "anchors": ["ndn-cxx/security/certificate.cpp:Certificate::Certificate", "ndn-cxx/security/certificate.cpp:Certificate::isValidName", "ndn-cxx/security/certificate.cpp:extractIdentityFromCertName", "ndn-cxx/security/certificate.cpp:extractKeyNameFromCertName"]}
{"id": "C105", "title": "Transfer of keys between KeyChains", "statement": "After any history each certificate of a KeyChain can be exported with its private key, which changes nothing; a second KeyChain, after any history of its own and as long as it has no private key of that name, imports it and has then the same certificate, public key and private key, and loses nothing.", "quantifier": "all pairs of histories of two KeyChains, all certificates stored", "why_tests_cant": "ranges over all pairs of histories", "anchors": ["ndn-cxx/security/key-chain.cpp:KeyChain::exportSafeBag", "ndn-cxx/security/key-chain.cpp:KeyChain::importSafeBag", "ndn-cxx/security/tpm/back-end.cpp:BackEnd::exportKey"]}
{"id": "C106", "title": "Levels of loggers", "statement": "At any time every logger has the level of the last rule that speaks of it, whether it was created before or after the rule was given, and NONE if there is none; a rule speaks of one logger, or, with an asterisk at the end, of all loggers whose name begins so; only well-formed names are accepted; FATAL is always enabled.", "quantifier": "all histories of creating loggers, registering names and setting levels, all patterns", "why_tests_cant": "ranges over all histories and orders of static initialisation", "anchors": ["ndn-cxx/util/logging.cpp:Logging::setLevelImpl", "ndn-cxx/util/logging.cpp:Logging::findLevel", "ndn-cxx/util/logging.cpp:Logging::addLoggerImpl", "ndn-cxx/util/logger.cpp:Logger::Logger"]}
{"id": "C107", "title": "Texts that configure the levels", "statement": "A text is accepted exactly if it consists of pairs of a pattern and the name of a level separated by colons; it has then one meaning, namely giving these rules one after the other; a text that is refused changes nothing.", "quantifier": "all texts, all states", "why_tests_cant": "ranges over all texts", "anchors": ["ndn-cxx/util/logging.cpp:Logging::setLevelImpl", "ndn-cxx/util/logger.cpp:parseLogLevel"]}
{"id": "C108", "title": "Requests for certificates", "statement": "During a validation each request for a certificate is answered at most once, by a certificate that has the name asked for and that came from the network, a bundle or another validation, or by a failure; Interests per request are bounded; whatever Nacks and timeouts come, a request is answered after at most eight of them; nothing undefined happens.", "quantifier": "all histories of requests, Data, Nacks, timeouts, retries, other validations and clock changes, for each of the fetchers with or without bundles", "why_tests_cant": "ranges over all histories and all contents of packets", "anchors": ["ndn-cxx/security/certificate-fetcher.cpp:CertificateFetcher::fetch", "ndn-cxx/security/certificate-bundle-fetcher.cpp:CertificateBundleFetcher::dataCallback", "ndn-cxx/security/certificate-fetcher-from-network.cpp:CertificateFetcherFromNetwork::dataCallback"]}
{"id": "C109", "title": "Bundles of certificates", "statement": "The bundle is looked for under the name of the packet validated without its implicit digest and segment number, so all segments of an object share it; the segments asked for are the first one, or the one after a segment that came; none is asked for beyond the FinalBlockId.", "quantifier": "all names, all histories", "why_tests_cant": "ranges over all names and histories", "anchors": ["ndn-cxx/security/certificate-bundle-fetcher.cpp:CertificateBundleFetcher::deriveBundleName", "ndn-cxx/security/certificate-bundle-fetcher.cpp:CertificateBundleFetcher::fetchNextBundleSegment", "ndn-cxx/security/certificate-bundle-fetcher.cpp:CertificateBundleFetcher::fetchFirstBundleSegment"]}
{"id": "C110", "title": "Where Interests for certificates go", "statement": "Offline no Interest is sent; the network fetcher sends them without next hop; the direct fetcher to the face the packet came from, and to the network as well unless it is told not to; they carry the name asked for; the waits after a Nack are 500, 1000 and 2000 ms.", "quantifier": "all histories", "why_tests_cant": "ranges over all histories", "anchors": ["ndn-cxx/security/certificate-fetcher-direct-fetch.cpp:CertificateFetcherDirectFetch::doFetch", "ndn-cxx/security/certificate-fetcher-from-network.cpp:CertificateFetcherFromNetwork::nackCallback", "ndn-cxx/security/certificate-fetcher-offline.cpp:CertificateFetcherOffline::doFetch"]}
{"id": "C111", "title": "Pipelines of transformations", "statement": "A pipeline of any modules (hexadecimal, white space, base64, cipher, digest, signature) applied to an input gives the functions of the modules one after the other, whether the input comes in one buffer, in many or from a stream read in pieces of any size; it throws exactly if a module refuses its input or the stream breaks; no assertion fails and every loop ends.", "quantifier": "all lists of modules, all inputs, all divisions into buffers, all buffer sizes", "why_tests_cant": "ranges over all pipelines and all divisions of the input", "anchors": ["ndn-cxx/security/transform/transform-base.cpp:Transform::doWrite", "ndn-cxx/security/transform/buffer-source.cpp:BufferSource::doPump", "ndn-cxx/security/transform/stream-source.cpp:StreamSource::doPump", "ndn-cxx/security/transform/base64-decode.cpp:Base64Decode::finalize", "ndn-cxx/security/transform/block-cipher.cpp:BlockCipher::convert"]}
{"id": "C112", "title": "Step sources", "statement": "Before the first end() a write takes all octets; afterwards it throws and changes nothing; end() can be repeated; the sink is ended once and then holds what the modules make of all that was written before the first end().", "quantifier": "all pipelines, all histories of write and end", "why_tests_cant": "ranges over all histories", "anchors": ["ndn-cxx/security/transform/step-source.cpp:StepSource::write", "ndn-cxx/security/transform/transform-base.cpp:Downstream::write", "ndn-cxx/security/transform/transform-base.cpp:Downstream::end"]}
{"id": "C113", "title": "Verification of signatures over octets", "statement": "A signature is accepted by a public key exactly if it is a signature of the octets of all blobs together; by an HMAC key exactly if it is the HMAC; a digest exactly if it is the digest and there is at least one blob.", "quantifier": "all keys, all blobs, all signatures of any length", "why_tests_cant": "ranges over all signatures, of all lengths", "anchors": ["ndn-cxx/security/transform/verifier-filter.cpp:VerifierFilter::finalize", "ndn-cxx/security/verification-helpers.cpp:verifySignature", "ndn-cxx/security/verification-helpers.cpp:verifyDigest", "ndn-cxx/security/tpm/impl/key-handle-mem.cpp:KeyHandleMem::doVerify"]}
{"id": "C114", "title": "Digest objects", "statement": "A digest object gives the digest of all octets put in since it was made or reset, in whatever pieces; asking again gives the same; putting octets in afterwards throws and changes nothing; objects do not influence each other, and comparison compares the digests.", "quantifier": "all histories of calls on any number of objects", "why_tests_cant": "ranges over all histories", "anchors": ["ndn-cxx/util/sha256.cpp:Sha256::update", "ndn-cxx/util/sha256.cpp:Sha256::computeDigest", "ndn-cxx/util/sha256.cpp:Sha256::operator=="]}
{"id": "C115", "title": "Octets saved and loaded", "statement": "Octets saved without encoding, as base64 or as hexadecimal are loaded as they were; a text is loaded as hexadecimal exactly if it is a hexadecimal notation of what is loaded; line breaks do not matter in base64; a stream that breaks is reported.", "quantifier": "all octets and texts of any length", "why_tests_cant": "ranges over all octets and texts", "anchors": ["ndn-cxx/util/io.cpp:saveBuffer", "ndn-cxx/util/io.cpp:loadBuffer"]}
{"id": "C116", "title": "Verification of Data packets", "statement": "A received Data packet is accepted exactly if the key accepts its signature value for the octets from its name up to the signature value; without a certificate exactly if its type is DigestSha256 and its signature is the digest of these octets. A packet that was signed is accepted by the receiver. If a key accepts only what its owner signed, a packet that is accepted has the name, meta information, content and signature information of one the owner signed.", "quantifier": "all octets received, all keys, all sets of packets signed", "why_tests_cant": "ranges over all packets an attacker can make", "anchors": ["ndn-cxx/security/verification-helpers.cpp:parse(const Data&)", "ndn-cxx/security/verification-helpers.cpp:verifySignature", "ndn-cxx/data.cpp:Data::extractSignedRanges"]}
{"id": "C117", "title": "Verification of Interests", "statement": "A received Interest is accepted exactly if it has the parts of a signed Interest, in the present format or, if it lacks a signature element, in the old one, and the key accepts the signature for the signed octets. Unsigned Interests are accepted by no key. If a key accepts only what its owner signed, an Interest that is accepted has the name and parameters of one the owner signed.", "quantifier": "all octets received, all keys, all sets of Interests signed", "why_tests_cant": "ranges over all Interests an attacker can make", "anchors": ["ndn-cxx/security/verification-helpers.cpp:parse(const Interest&)", "ndn-cxx/security/verification-helpers.cpp:verifySignature", "ndn-cxx/interest.cpp:Interest::extractSignedRanges"]}
{"id": "C118", "title": "A signature for one kind of packet is not one for another", "statement": "What is signed for an Interest is never what is signed for a Data packet, so that a key whose owner signs only Interests makes no Data packet acceptable.", "quantifier": "all Data packets and all Interests, in both formats", "why_tests_cant": "ranges over all pairs of packets", "anchors": ["ndn-cxx/security/verification-helpers.cpp:parse(const Interest&)", "ndn-cxx/security/verification-helpers.cpp:parse(const Data&)"]}
{"id": "C119", "title": "Interests signed in the old format", "statement": "Signing an Interest in the old format changes only its name, to which the signature information and the signature are appended; the receiver accepts the result exactly if the key accepts the signature made for the octets of the name and the signature information.", "quantifier": "all Interests, signature informations and keys", "why_tests_cant": "ranges over all Interests and signatures", "anchors": ["ndn-cxx/security/key-chain.cpp:KeyChain::sign(Interest&, const SigningInfo&)", "ndn-cxx/security/verification-helpers.cpp:parse(const Interest&)"]}
{"id": "C120", "title": "Netlink datagrams and attributes", "statement": "Of what the system sends, exactly the messages in the datagram received are handled, and of a message exactly the attributes it has; octets outside the datagram are never looked at. Of several attributes of a type the last one counts, and texts end at the first null octet.", "quantifier": "all datagrams, all contents of the buffer, all messages", "why_tests_cant": "ranges over all octets that may be received", "anchors": ["ndn-cxx/net/impl/netlink-message.hpp:NetlinkMessage::getNext", "ndn-cxx/net/impl/netlink-message.hpp:NetlinkMessageAttributes"]}
{"id": "C121", "title": "Enumeration and notifications", "statement": "The network monitor asks for links, then for addresses, then signals the end of the enumeration, each once; onNetworkStateChanged comes only after that. Once every request is answered the enumeration is complete. Notifications are always heard, and what other processes send or what is meant for others has no effect.", "quantifier": "all sequences of datagrams", "why_tests_cant": "ranges over all histories", "anchors": ["ndn-cxx/net/impl/netlink-socket.cpp:NetlinkSocket::receiveAndValidate", "ndn-cxx/net/impl/network-monitor-impl-netlink.cpp:NetworkMonitorImplNetlink::parseRtnlMessage"]}
{"id": "C122", "title": "Interfaces listed and signalled", "statement": "Whoever listens to the signals of the network monitor knows which interfaces there are, their states, MTUs and addresses, and every signal tells of a change. The interfaces are listed in the order of their indices, each once. A message about a link sets what it says, of its interface only; a deletion removes it.", "quantifier": "all sequences of datagrams", "why_tests_cant": "ranges over all histories", "anchors": ["ndn-cxx/net/impl/network-monitor-impl-netlink.cpp:NetworkMonitorImplNetlink::parseLinkMessage", "ndn-cxx/net/network-interface.cpp:NetworkInterface::setState"]}
{"id": "C123", "title": "Addresses of interfaces", "statement": "The addresses listed of an interface are those the system has on it, except tentative ones, none twice; messages about addresses change the interface they are about only.", "quantifier": "all sequences of messages about addresses", "why_tests_cant": "ranges over all histories", "anchors": ["ndn-cxx/net/impl/network-monitor-impl-netlink.cpp:NetworkMonitorImplNetlink::parseAddressMessage", "ndn-cxx/net/network-interface.cpp:NetworkInterface::addNetworkAddress"]}
{"id": "C124", "title": "A private key reported as stored is in the key store", "statement": "With private keys kept in files: after createKey or importKey has reported success, anybody who opens the same directory finds exactly that key under that name; no call on one name changes what is stored under another; hasKey, getKeyHandle and exportKey always agree; what is exported can be imported again as the same key; and any sequence of calls on a store that was empty behaves like a map from names to keys.", "quantifier": "every sequence of calls with every way of choosing names, every key, every amount of free space on the disk, with and without superuser rights, directories that can and cannot be written to", "why_tests_cant": "A test runs on a disk with space, in a fresh directory; what matters is the file left over by an earlier failure, and the failures that nobody reports.", "anchors": ["ndn-cxx/security/tpm/impl/back-end-file.cpp: saveKey, loadKey, doHasKey, doCreateKey, doImportKey, doExportKey, doDeleteKey", "ndn-cxx/security/tpm/back-end.cpp: createKey, importKey, exportKey, constructAsymmetricKeyName", "ndn-cxx/security/transform/stream-sink.cpp"]}
{"id": "C125", "title": "A crash while a key is stored leaves the old store or the new one", "statement": "If the program is stopped anywhere in the middle of creating, importing or deleting a key, each name has the key it had before or the one that was being stored (or none, if it was being deleted), never another one; and a key that is not there after a crash can be stored again.", "quantifier": "every call, every point at which it can be stopped (after each octet written), every earlier contents of the directory", "why_tests_cant": "Crash points cannot be enumerated by unit tests, and the state left by a crash decides what later calls do.", "anchors": ["ndn-cxx/security/tpm/impl/back-end-file.cpp: saveKey, doDeleteKey", "ndn-cxx/security/tpm/back-end.cpp: importKey, createKey"]}
{"id": "C126", "title": "Others cannot read private keys", "statement": "At no time, not even in the middle of a call or after a crash, can users other than the owner read a private key kept in a file.", "quantifier": "every sequence of calls and crashes, every umask, every intermediate state of the directory", "why_tests_cant": "A test looks at the permissions after the call; the claim is about every moment and about crashes.", "anchors": ["ndn-cxx/security/tpm/impl/back-end-file.cpp: saveKey"]}
{"id": "C127", "title": "The key a TPM uses is the one that is stored", "statement": "What a Tpm signs, verifies or decrypts with under a name is the key that the store holds under that name, and it finds no key exactly if the store holds none, although each Tpm keeps the handles it has loaded or made.", "quantifier": "every sequence of creations, imports, deletions and uses, through any number of Tpm objects on one directory", "why_tests_cant": "Stale handles need particular histories through several objects.", "anchors": ["ndn-cxx/security/tpm/tpm.cpp: createKey, deleteKey, importPrivateKey, findKey", "ndn-cxx/security/tpm/impl/back-end-file.cpp"]}
{"id": "C128", "title": "Locators of PIBs and TPMs", "statement": "A PIB or TPM locator is accepted exactly if its part before the first colon (all of it, if there is none) is empty or names a back end that exists; an empty one means the default back end, and the part after the first colon is the location, unchanged. What the KeyChain stores of a locator means the same when it is read again, and two accepted locators are stored as the same text only if they mean the same.", "quantifier": "every text", "why_tests_cant": "All texts, with any number of colons, with and without either part.", "anchors": ["ndn-cxx/security/key-chain.cpp: parseLocatorUri, parseAndCheckPibLocator, parseAndCheckTpmLocator, Locator::canonical"]}
{"id": "C129", "title": "A KeyChain uses the TPM its PIB belongs to, and erases no PIB without permission", "statement": "After a KeyChain was made, the locator stored in its PIB is the one of the TPM it uses; making it changes no other PIB and no TPM. If the PIB belongs to another TPM and resetting is not allowed, making the KeyChain fails and changes nothing. The TPM is the one asked for, a KeyChain with valid locators can be made, and different texts for one directory do not count as different TPMs. The default locators are read once and stay the same.", "quantifier": "every state of the file system, every environment and configuration file, every pair of locators, with and without permission, and every state in the middle", "why_tests_cant": "What happens depends on what earlier programs, with other settings, left in the PIB, and on where they were stopped.", "anchors": ["ndn-cxx/security/key-chain.cpp: KeyChain::KeyChain, getDefaultPibLocator, getDefaultTpmLocator", "ndn-cxx/security/pib/pib.cpp: setTpmLocator, reset"]}
{"id": "C130", "title": "Every key in the PIB has its private key in the TPM", "statement": "Whatever KeyChains are made, with whatever locators and settings, and whatever keys are created and deleted through them, through any number of programs one after another and stopped anywhere while making a KeyChain: each key listed by a KeyChain has its private key in its TPM.", "quantifier": "every sequence of KeyChains made and destroyed, keys created and deleted, and crashes while a KeyChain is made", "why_tests_cant": "Needs histories over several programs and several databases that share directories.", "anchors": ["ndn-cxx/security/key-chain.cpp: KeyChain::KeyChain, createKey, deleteKey", "ndn-cxx/security/pib/pib.cpp: setTpmLocator, reset"]}
{"id": "C131", "title": "Bundles of certificates decoded as they arrive", "statement": "However the octets of a certificate bundle are cut into segments: each certificate in it is given to the handlers once, in order, as soon as its last octet was appended; elements that may be ignored are; anything else ends the decoding with an exception, nothing is emitted afterwards, and every later segment is refused. As long as there is no error, the octets kept are the beginning of an element.", "quantifier": "every sequence of octets, every way of cutting it into segments, every handler", "why_tests_cant": "All ways to cut all sequences of octets, with headers split in the middle.", "anchors": ["ndn-cxx/security/detail/certificate-bundle-decoder.cpp: append, decode"]}
{"id": "C132", "title": "A Face connects to the forwarder that is asked for", "statement": "For every value of the environment variable NDN_CLIENT_TRANSPORT and every configuration file in each of the places where one is looked for: a Face made without a transport connects to what the environment variable says, otherwise to what the first file that exists says, otherwise to the local forwarder; a URI leads to the socket, or the host and port, in it, with the documented defaults, and anything else is an error.", "quantifier": "every environment, every set of configuration files and their states, every URI", "why_tests_cant": "The combinations of variables, files and URIs are unbounded.", "anchors": ["ndn-cxx/face.cpp: makeDefaultTransport", "ndn-cxx/transport/unix-transport.cpp: getSocketNameFromUri", "ndn-cxx/transport/tcp-transport.cpp: getSocketHostAndPortFromUri", "ndn-cxx/util/config-file.cpp: findConfigFile, open"]}
{"id": "C133", "title": "An operation is cancelled once, when its handle goes", "statement": "Through every sequence of making, moving, assigning (also to itself), releasing, cancelling and destroying scoped handles: each operation is in one place, in one scoped handle that exists, in a plain handle, or among those cancelled; it is cancelled once, when the scoped handle that has it is destroyed, assigned to or cancelled; moving and releasing cancel nothing.", "quantifier": "every history of any number of scoped handles", "why_tests_cant": "Histories of moves, assignments and destructions are unbounded.", "anchors": ["ndn-cxx/detail/cancel-handle.hpp: ScopedCancelHandle", "ndn-cxx/detail/cancel-handle.cpp: CancelHandle::cancel"]}
{"id": "C134", "title": "A handler is connected only as long as its ScopedConnection exists", "statement": "Through every sequence of connecting, putting connections in ScopedConnections, moving, assigning, releasing, disconnecting and destroying: a connection that was put in a ScopedConnection and not released is connected only while some ScopedConnection holds it, and is cut only by who disconnects it or by an object that holds it.", "quantifier": "every history of any number of connections and ScopedConnections", "why_tests_cant": "Histories of moves, assignments and destructions are unbounded.", "anchors": ["ndn-cxx/util/signal/scoped-connection.hpp: ScopedConnection", "ndn-cxx/util/signal/scoped-connection.cpp: operator=, release", "ndn-cxx/util/signal/connection.hpp: operator=="]}
{"id": "C135", "title": "The commands of ndnsec change what their help texts say, and nothing else", "statement": "Each ndnsec command (key-gen, delete, set-default, get-default, cert-install, import, sign-req, cert-gen, cert-dump) that is not killed ends with exit code 0, 1 or 2, and its effect on the stored identities, keys, certificates, defaults and private keys is exactly the documented one; commands that show or sign something change nothing; after an identity is deleted none of its keys is left in the PIB or the TPM.", "quantifier": "every sequence of commands with all their options on the SQLite PIB, each run by a new process, starting with an empty store", "why_tests_cant": "The effect of a command depends on everything that earlier commands left in two separate files.", "anchors": ["tools/ndnsec/key-gen.cpp", "tools/ndnsec/delete.cpp", "tools/ndnsec/set-default.cpp", "tools/ndnsec/get-default.cpp", "tools/ndnsec/cert-install.cpp", "tools/ndnsec/import.cpp", "tools/ndnsec/sign-req.cpp", "tools/ndnsec/cert-gen.cpp", "tools/ndnsec/cert-dump.cpp", "tools/ndnsec/util.cpp: getCertificateFromPib", "tools/ndnsec/main.cpp"]}
{"id": "C136", "title": "Killing ndnsec leaves usable keys", "statement": "Wherever ndnsec commands are killed, each key that is then in the PIB can sign, its signatures verify with its public key, each certificate is for the public key of its key, and each default exists.", "quantifier": "every sequence of commands, each killed at any access to the PIB or the TPM or not at all", "why_tests_cant": "Every point at which a process may be killed, after every history, has to be considered.", "anchors": ["tools/ndnsec/main.cpp", "ndn-cxx/security/key-chain.cpp: createKey, deleteIdentity, deleteKey, importSafeBag", "ndn-cxx/security/pib/impl/pib-sqlite3.cpp"]}
{"id": "C137", "title": "Requesting, issuing and installing a certificate works", "statement": "If a user runs sign-req for an identity, an issuer runs cert-gen on the request, and the user runs cert-install on the outcome, then the request is signed with the key of the user, the certificate is for that public key and signed with the default key of the issuer, and it becomes the default certificate of the identity of the user.", "quantifier": "all stores of the user and the issuer reached by any sequences of commands, all identities, validity periods, issuer IDs and versions", "why_tests_cant": "The outcome depends on the histories of two stores.", "anchors": ["tools/ndnsec/sign-req.cpp", "tools/ndnsec/cert-gen.cpp", "tools/ndnsec/cert-install.cpp"]}
{"id": "C138", "title": "An object cut into segments and fetched over the wire arrives intact", "statement": "If an application cuts a byte string into segments with Segmenter and puts them on the wire, and a consumer fetches it with SegmentFetcher through a validator that accepts only the packets published, then whatever is lost, duplicated, reordered, forged or corrupted on the way, onComplete only ever reports exactly the byte string, and in in-order mode what is delivered is a prefix of it, and all of it when onInOrderComplete is signalled; and if nothing is lost, the fetch completes once each Interest is answered.", "quantifier": "all byte strings, names, segment sizes, signing functions, fetcher options, and all sequences of packets (arbitrary octets), validation results, Nacks, timeouts and losses", "why_tests_cant": "The composition of segmentation, encoding, decoding and reassembly has to hold for all objects under all schedules and all foreign packets.", "anchors": ["ndn-cxx/util/segmenter.cpp: Segmenter::segment", "ndn-cxx/data.cpp: Data::wireEncode, Data::wireDecode", "ndn-cxx/util/segment-fetcher.cpp: SegmentFetcher::start, afterSegmentReceivedCb, afterValidationSuccess, finalizeFetch"]}
{"id": "C139", "title": "A management dataset arrives as the handler made it", "statement": "Whatever a dataset handler appends to its StatusDatasetContext before end(), in any number and sizes of pieces, a consumer whose SegmentFetcher completes, with a validator that accepts only packets of the dispatcher, gets exactly these bytes and reads the items they spell; of several versions published it gets one, never a mixture; and if the handler rejects the request the consumer is told of an error of the server.", "quantifier": "all sequences of calls of a handler, all dataset sizes, names and versions, all sequences of packets (arbitrary octets), validation results, Nacks, timeouts and losses", "why_tests_cant": "Segmentation, naming, encoding, decoding and reassembly have to agree for all datasets under all schedules.", "anchors": ["ndn-cxx/mgmt/status-dataset-context.cpp", "ndn-cxx/mgmt/dispatcher.cpp: sendStatusDatasetSegment, sendData, sendControlResponse", "ndn-cxx/util/segment-fetcher.cpp", "ndn-cxx/mgmt/nfd/controller.cpp: fetchDataset", "ndn-cxx/mgmt/nfd/status-dataset.cpp"]}
{"id": "C140", "title": "A command reaches its handler and its outcome the caller", "statement": "If a command is registered with a Dispatcher under the prefix the Controller uses, then each command the Controller starts is handed to the authorization function with exactly the parameters given, and, once accepted, to the handler with the defaults filled in, never refused as invalid; what the handler answers is sent under the name of the Interest; and received over the wire and validated it makes the Controller report success with the parameters in the body, or failure with this very response.", "quantifier": "all NFD commands, parameters, prefixes, names of signed Interests, histories of the Dispatcher and of the Controller, and responses", "why_tests_cant": "Both sides and the formats between them have to agree for all parameters and after all histories.", "anchors": ["ndn-cxx/mgmt/nfd/controller.cpp: startCommand, processCommandResponse", "ndn-cxx/mgmt/nfd/control-command.hpp: createRequest, parseRequest", "ndn-cxx/mgmt/dispatcher.cpp: processCommand, processAuthorizedCommand, sendControlResponse", "ndn-cxx/mgmt/control-response.cpp"]}
{"id": "C141", "title": "A subscriber hears consecutive notifications", "statement": "If a NotificationSubscriber with a handler follows a stream that an application posts through a Dispatcher, and each of its Interests is answered by some matching packet of the stream, then the handler is given consecutive notifications of the stream, decoded from exactly the octets posted, in the order of posting, none twice and none left out; if its first Interest asked for a particular number, the first notification is the one of that number.", "quantifier": "all histories of the Dispatcher, all histories of the subscriber before, all numbers and contents of notifications, all packets received as octets", "why_tests_cant": "Numbering at the producer, naming, encoding, decoding and counting at the consumer have to agree for all histories.", "anchors": ["ndn-cxx/mgmt/dispatcher.cpp: postNotification, sendData", "ndn-cxx/util/notification-subscriber.cpp", "ndn-cxx/util/notification-subscriber.hpp: decodeAndDeliver", "ndn-cxx/util/notification-stream.hpp"]}
{"id": "C142", "title": "An Interest signed in the new format is accepted by its receiver", "statement": "Signing an Interest that is not signed yet, with or without application parameters, in the new format succeeds, changes nothing but the parameters, the digest in the name and a missing nonce, and the receiver of its encoding accepts it exactly if the key accepts the signature value for the octets that were signed: the name without the digest and the parameters up to the SignatureInfo.", "quantifier": "all Interests, with any parameters, names, hints and other fields, all SignatureInfos, signing functions, digests and keys", "why_tests_cant": "Signer and verifier find the signed octets in different representations, for Interests of any shape.", "anchors": ["ndn-cxx/security/key-chain.cpp: KeyChain::sign", "ndn-cxx/interest.cpp: setSignatureInfo, setSignatureValue, extractSignedRanges, addOrReplaceParametersDigestComponent", "ndn-cxx/security/verification-helpers.cpp"]}
{"id": "C143", "title": "What a key chain signs its receivers accept", "statement": "After any sequence of calls on a KeyChain, a Data packet or an Interest signed with it, in the old or the new format, is accepted by a receiver that verifies it with the public key of the key asked for, or with any certificate of that key in the PIB; one signed with a digest by a receiver without certificate; one signed with an HMAC key by a receiver with that key. Signing an Interest changes nothing in it but the signature, the digest and a missing nonce, and nothing in the PIB. If there is no such key, it fails.", "quantifier": "all histories of calls on a key chain, both PIB implementations, all signing options, all packets that can be encoded, all key pairs that work", "why_tests_cant": "The key, the locator, the octets signed and the octets verified depend on the whole history and on the packet.", "anchors": ["ndn-cxx/security/key-chain.cpp: KeyChain::sign, prepareSignatureInfo", "ndn-cxx/security/verification-helpers.cpp", "ndn-cxx/security/signing-info.cpp", "ndn-cxx/interest.cpp", "ndn-cxx/data.cpp"]}
{"id": "C144", "title": "A signer and the policies against replays agree", "statement": "If the Interests that reach a validator under a key are some of those that one InterestSigner made, in that order, and the time in each is within the grace period when it arrives, then ValidationPolicySignedInterest, with any options whose elements were asked for, and ValidationPolicyCommandInterest let every one of them pass, whatever arrives under other keys, whatever fails and however validations overlap. A signer used at most once per millisecond, on a clock that is not set back, puts the reading of the clock into every Interest.", "quantifier": "all sequences of signings with any readings of the clock, all histories of the validator, with losses, delays and any other Interests, all options of the policies", "why_tests_cant": "The state of the signer and that of the policy have to stay in step over all histories of both.", "anchors": ["ndn-cxx/security/interest-signer.cpp", "ndn-cxx/security/validation-policy-signed-interest.cpp", "ndn-cxx/security/validation-policy-command-interest.cpp"]}
{"id": "C145", "title": "A prefix announcement reaches the handler of rib/announce", "statement": "A rib/announce request made from any announcement that has its packet, signed in the new format with any key, encoded and received, is an Interest under the name of the command from which the handler gets an announcement equal to the one sent, with the very same packet, which passes the check of the command. An announcement without packet is refused as an argument error. The handler accepts exactly those Interests in whose first parameter element the first Data packet is an announcement. Responses are checked as those to rib/register.", "quantifier": "all announcements a program can hold, all prefixes, signing keys and signature information, all Interests received", "why_tests_cant": "Announcement, Data, Interest and signing formats are nested and have to agree for all contents.", "anchors": ["ndn-cxx/mgmt/nfd/control-command.hpp: ApplicationParametersCommandFormat, RibAnnounceParameters, RibAnnounceCommand", "ndn-cxx/mgmt/nfd/control-command.cpp: RibAnnounceParameters, RibAnnounceCommand", "ndn-cxx/prefix-announcement.cpp", "ndn-cxx/interest.cpp"]}
{"id": "C146", "title": "A certificate made with a key chain is one for its receivers", "statement": "After any sequence of calls on a KeyChain, the packet that makeCertificate returns, for a key of the PIB or for a request, is received as a certificate with the identity, key name, issuer and version asked for, exactly the public key given, and the validity period asked for; it is valid at exactly the instants of that period; it verifies with the public key of the issuer; and a receiver who knows that public key trusts with it exactly the packets that verify with the public key certified, and only in the period. The same holds for the self-signed certificate of a new key.", "quantifier": "all histories of calls on a key chain, both PIB implementations, all signing options, certificate options, validity periods of representable instants, all instants, all packets checked with the certificate", "why_tests_cant": "Key chain, packet, certificate and date formats have to agree for all histories, names, keys and dates.", "anchors": ["ndn-cxx/security/key-chain.cpp: makeCertificate, selfSign", "ndn-cxx/security/certificate.cpp", "ndn-cxx/security/validity-period.cpp", "ndn-cxx/signature-info.cpp: getValidityPeriod, addCustomTlv", "ndn-cxx/security/verification-helpers.cpp"]}
{"id": "C147", "title": "Linked dummy faces hear each other", "statement": "After any sequence of linkTo and unlink calls on DummyClientFace objects, in which no face is linked to itself, a packet sent by a face is received exactly once by every other face on its broadcast link and by no other face; linkTo throws exactly if the two faces are on different links and then changes nothing; hearing is mutual and transitive; unlinking a face takes just this face from its link. Callbacks may link and unlink faces outside of the link while a packet is delivered on it.", "quantifier": "all sequences of linkTo and unlink over any number of faces, all senders, all reactions of callbacks to faces outside of the link", "why_tests_cant": "The shared link objects are changed by all faces on them, in any order, and while they are iterated.", "anchors": ["ndn-cxx/util/dummy-client-face.cpp: linkTo, unlink, enableBroadcastLink, ~DummyClientFace"]}
{"id": "C148", "title": "Prefix registrations on a dummy face with registration replies succeed", "statement": "A DummyClientFace with registration replies answers every valid rib/register and rib/unregister command for the local forwarder, whatever signing appends to its name, with code 200 and the parameters of the command in which the face ID of the options, the origin \"app\" and, for rib/register, the cost zero stand for those not given. The Controller reports this as success with these parameters, exactly if the face ID is not zero and a rib/register command has flags; Face::registerPrefix and the unregistration always succeed. Every Interest elsewhere is ignored.", "quantifier": "all parameters of the two commands, all suffixes of the name, all face IDs, all Interest names", "why_tests_cant": "The parameters pass through two codecs and two validations that have to agree for every combination of fields.", "anchors": ["ndn-cxx/util/dummy-client-face.cpp: enableRegistrationReply", "ndn-cxx/mgmt/nfd/control-command.cpp", "ndn-cxx/mgmt/nfd/controller.cpp: processValidatedCommandResponse", "ndn-cxx/impl/face-impl.hpp: registerPrefix"]}
{"id": "C149", "title": "Texts of management enumerations can be told apart and read back", "statement": "Different values of FaceScope, FacePersistency, LinkType, FaceEventKind, RouteOrigin and RouteFlags, including values without a name, are printed differently. Extracting a RouteOrigin from a stream skips white space, takes one word, and gives the origin exactly if the word is one of the names in any case or a decimal number in the range, perhaps with a sign; otherwise the stream fails and the origin is \"none\". Every printed origin is read back. From the text of route flags every bit can be told.", "quantifier": "all values of the enumerations, all octet strings in the stream", "why_tests_cant": "The ranges have up to 2^64 values and the inputs are arbitrary texts.", "anchors": ["ndn-cxx/encoding/nfd-constants.cpp", "ndn-cxx/encoding/nfd-constants.hpp", "ndn-cxx/util/ostream-joiner.hpp", "ndn-cxx/util/string-helper.cpp: printHex"]}
{"id": "C150", "title": "Indented streams indent every line", "statement": "What is written to an IndentedStream, in any pieces, arrives at the underlying stream with the indent before every line, when it is flushed or destroyed, and nothing else is changed, if it is flushed at line ends; a last line without newline gets one. Indented streams can be nested.", "quantifier": "all sequences of writes and flushes, all texts and indents", "why_tests_cant": "The buffer is split anew at every flush, so the result depends on the history.", "anchors": ["ndn-cxx/util/indented-stream.cpp"]}
{"id": "C151", "title": "Packets and their tags between faces", "statement": "What a Face hands to its transport is the bare Interest or Data, or an LpPacket holding exactly the fields its tags call for, in order, and the packet; it refuses exactly what exceeds 8800 octets and Data with an empty cache policy. A Face takes an Interest, Data or Nack from a block exactly when the block is such a packet or an LpPacket of ordered known or ignorable fields with it in the fragment, with the incoming face, congestion mark and Nack reason given by the fields. So what one Face sends another receives: the same octets, reason and congestion mark. On dummy faces tests see the packets and tags that are sent, packets given to receive arrive with their tags, and packets arrive unchanged over a link.", "quantifier": "all Interests, Data and Nacks, all tags, all received blocks", "why_tests_cant": "Every combination of tags and sizes of fields gives another encoding, and received blocks are arbitrary octets.", "anchors": ["ndn-cxx/impl/face-impl.hpp: expressInterest, putData, putNack, finishEncoding", "ndn-cxx/face.cpp: onReceiveElement", "ndn-cxx/impl/lp-field-tag.hpp", "ndn-cxx/util/dummy-client-face.cpp: construct, receive"]}
{"id": "C152", "title": "A stubbed network monitor and its observers", "statement": "Adding an interface to a NetworkMonitorStub throws exactly if there is one of that name, and then changes and signals nothing; otherwise it can be found by its name and all observers are told. Removing makes it unknown and tells all observers, or does nothing. The list holds each interface that can be found by name, once. An observer that follows onInterfaceAdded and onInterfaceRemoved always knows the same interfaces as the monitor, if none but the observer connected last calls the monitor from its handlers.", "quantifier": "all histories of calls, all numbers of observers, all reactions of handlers", "why_tests_cant": "Handlers may call the monitor while a signal is emitted, so the order of events depends on the schedule.", "anchors": ["ndn-cxx/net/network-monitor-stub.cpp", "ndn-cxx/util/signal/signal.hpp: operator()"]}
{"id": "C153", "title": "Packet tags are a table by type", "statement": "A packet has at most one tag of each type: after any history of setting, replacing, removing and copying packets, getTag gives the tag set last on that packet, or on the packet it was copied from before the copy; setting a null pointer removes; types and copies do not affect each other.", "quantifier": "all sequences of calls on any number of packets", "why_tests_cant": "The table depends on the whole history of calls.", "anchors": ["ndn-cxx/detail/tag-host.hpp"]}
{"id": "C154", "title": "The text of a name means what the URI scheme says", "statement": "Component::fromUri accepts exactly the texts of components: a percent-escaped value, a type number with such a value, or one of the named types with a digest in hexadecimal or a decimal number; values of periods only have three more in the text. Name(text) is cut at the slashes, each piece giving one component in order; an empty piece is refused except after the last slash; the first slash may be left out if the first piece has no colon.", "quantifier": "all octet strings", "why_tests_cant": "Every string is a possible input; tests try a few spellings.", "anchors": ["ndn-cxx/name.cpp: Name::Name(std::string_view)", "ndn-cxx/name-component.cpp: Component::fromUri", "ndn-cxx/impl/name-component-types.hpp"]}
{"id": "C155", "title": "Key parameters have supported sizes and decide type, size and name of the key", "statement": "RsaKeyParams, EcKeyParams, AesKeyParams and HmacKeyParams exist only with a supported size (2048 to 16384 bits; 224, 256, 384 or 521; 128, 192 or 256; a positive multiple of 8); other sizes throw KeyParams::Error. A key created from them has that type and just that size, and is named by the key id given last, by the digest or by the random number asked for. Types a TPM back-end cannot create are an invalid argument; the only other error is a key id in use.", "quantifier": "all types, sizes, key ids, histories of setKeyId, back-ends and contents of the back-end", "why_tests_cant": "Sizes and histories of setters are unbounded.", "anchors": ["ndn-cxx/security/key-params.hpp", "ndn-cxx/security/key-params.cpp", "ndn-cxx/security/transform/private-key.cpp: generatePrivateKey", "ndn-cxx/security/tpm/back-end.cpp: createKey"]}
