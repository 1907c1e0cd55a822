#!/usr/bin/env python3
"""Generates /verif/properties.jsonl. One call of P() per property."""
import json, os
OUT = os.path.join(os.path.dirname(__file__), '..', 'properties.jsonl')
rows = []
def P(id, title, statement, quantifier, why, anchors):
    rows.append(dict(id=id, title=title, statement=statement, quantifier=quantifier,
                     why_tests_cant=why, anchors=anchors))

E='ndn-cxx/encoding/'
# ---------------------------------------------------------------- TLV / Block
P('C01','TLV variable-size number round trip',
  'For every 64-bit number n, the bytes produced by tlv::writeVarNumber(n) followed by any bytes are read back by tlv::readVarNumber as exactly n, leaving exactly the following bytes; the number of bytes written is tlv::sizeOfVarNumber(n) and is the shortest of the forms the reader accepts for n.',
  'every n in [0,2^64) and every trailing byte string','2^64 values times every suffix; tests sample the boundaries only',
  [E+'tlv.hpp:tlv::readVarNumber',E+'tlv.hpp:tlv::sizeOfVarNumber',E+'tlv.cpp:tlv::writeVarNumber'])
P('C02','TLV number reader is bounded, total and prefix-stable',
  'On every byte string tlv::readVarNumber and tlv::readType either fail without consuming a well-defined result or return a number that depends only on the bytes consumed, never read past the end, fail only when the bytes announced by the first octet are not all there (readType additionally rejects 0 and values above 2^32-1), and appending bytes to an input that was read successfully does not change the result.',
  'every byte string','the set of byte strings is infinite',
  [E+'tlv.hpp:tlv::readVarNumber',E+'tlv.hpp:tlv::readType',E+'tlv.hpp:tlv::detail::readNumber'])
P('C03','NonNegativeInteger round trip and minimal length',
  'For every 64-bit n, tlv::writeNonNegativeInteger(n) writes sizeOfNonNegativeInteger(n) bytes (1, 2, 4 or 8, the least that fit) and tlv::readNonNegativeInteger over that length returns n; for a length other than 1, 2, 4, 8, or one exceeding the available bytes, the reader fails; readNonNegativeIntegerAs<R> returns the value exactly when it fits in R.',
  'every n, every length, every byte string','2^64 values; every length',
  [E+'tlv.hpp:tlv::readNonNegativeInteger',E+'tlv.hpp:tlv::sizeOfNonNegativeInteger',E+'tlv.cpp:tlv::writeNonNegativeInteger',E+'block-helpers.hpp:readNonNegativeIntegerAs'])
P('C04','Encoder buffer is a byte deque; estimator agrees',
  'Starting from any reserve sizes, every sequence of prepend/append operations on an Encoder (bytes, ranges, VAR-NUMBERs, NonNegativeIntegers, with any interleaved reserveFront/reserveBack) leaves in the buffer exactly the concatenation obtained by prepending/appending the same byte strings to an initially empty list, never writes outside the allocated storage, and each operation returns the same size as the same operation on an Estimator.',
  'every initial reserve and every finite sequence of operations','sequences and reserve sizes are unbounded; reallocation points vary',
  [E+'encoder.hpp:Encoder',E+'encoder.cpp:Encoder::reserve',E+'estimator.hpp:Estimator'])
P('C05','Block encode/decode round trip',
  'For every TLV element tree, encoding it and decoding the bytes (from a span, or as the first element of a longer buffer) gives back an equal tree; Block::fromBuffer consumes exactly the encoded length.',
  'every finite element tree (types 1..2^32-1, any nesting, any sizes below 2^64) and every trailing byte string','unbounded depth and width',
  [E+'block.cpp:Block::encode',E+'block.cpp:Block::fromBuffer',E+'block.cpp:Block::parse'])
P('C06','Block::fromBuffer on arbitrary bytes',
  'For every byte string Block::fromBuffer either reports failure or returns an element whose type, value and size are exactly those delimited by the leading TLV header; it fails exactly when the header is incomplete or malformed or the announced value is not entirely present; success is not changed by appending bytes, and failure for want of bytes is the only failure that more bytes can cure.',
  'every byte string','infinite input space, including hostile input',
  [E+'block.cpp:Block::fromBuffer',E+'block.cpp:Block::Block(span)'])
P('C07','Block::parse is lossless and all-or-nothing',
  'If Block::parse() succeeds, the wire encodings of the sub-elements concatenated are exactly the value bytes (no byte dropped, reordered or invented), and each sub-element type is in 1..2^32-1; if the value is not a well-formed sequence of TLVs parse() fails, however often it is called.',
  'every value byte string and every number of calls','infinite input space; repeated calls',
  [E+'block.cpp:Block::parse'])
P('C08','Block mutators behave as list operations and never leave a stale wire',
  'After any sequence of push_back, erase, remove, insert, encode, and get/find queries on a Block built from elements, encode() gives the TLV of the current element list and get/find return the first current element of the given type.',
  'every finite sequence of operations','unbounded histories; stale caches show only in particular interleavings',
  [E+'block.cpp:Block::push_back',E+'block.cpp:Block::erase',E+'block.cpp:Block::remove',E+'block.cpp:Block::insert',E+'block.cpp:Block::encode',E+'block.cpp:Block::resetWire'])
P('C09','Block::fromStream consumes exactly one element and honours the packet size limit',
  'From any input stream, Block::fromStream either fails or returns the element at the head of the stream, whose total size does not exceed MAX_NDN_PACKET_SIZE, and the stream is left exactly after it.',
  'every stream content','infinite input space; hostile lengths near 2^64',
  [E+'block.cpp:Block::fromStream'])
# ---------------------------------------------------------------- Name
P('C10','Canonical order of name components is a strict total order consistent with equality',
  'name::Component::compare is a total order on components, agrees with ==, orders by TLV-TYPE, then TLV-LENGTH, then bytes; this whether or not the components carry a wire encoding.',
  'all components (all pairs and triples)','transitivity/totality over an infinite set',
  ['ndn-cxx/name-component.cpp:Component::compare','ndn-cxx/name-component.hpp:Component::operator=='])
P('C11','Canonical order of names',
  'Name::compare is a total order, is lexicographic over components with a proper prefix ordered first, returns 0 exactly for equal names, and compare(pos1,n1,other,pos2,n2) equals comparing the corresponding sub-names.',
  'all names (all pairs and triples) and all positions/counts within range','infinite set',
  ['ndn-cxx/name.cpp:Name::compare','ndn-cxx/name.cpp:Name::equals'])
P('C12','isPrefixOf and range search',
  'a.isPrefixOf(b) holds exactly when b starts with all components of a; for non-empty a this is equivalent to a <= b < a.getSuccessor() in canonical order.',
  'all pairs of names','infinite set; carry chains in the successor are long',
  ['ndn-cxx/name.cpp:Name::isPrefixOf','ndn-cxx/name.cpp:Name::getSuccessor','ndn-cxx/name.cpp:Name::compare'])
P('C13','getSuccessor is the next element of canonical order',
  'Component::getSuccessor returns the least component greater than the given one (over all valid components), and Name::getSuccessor returns the least name that is greater than every name having the given non-empty name as prefix.',
  'all valid components and names','must exclude every candidate in between',
  ['ndn-cxx/name-component.cpp:Component::getSuccessor','ndn-cxx/impl/name-component-types.hpp:getSuccessorImpl','ndn-cxx/name.cpp:Name::getSuccessor'])
P('C14','Name URI round trip',
  'For every name made of valid components, Name(n.toUri(f)) equals n for both URI formats f.',
  'all names, both formats','infinite set; dot-only, empty and percent-escaped components',
  ['ndn-cxx/name.cpp:Name::toUri','ndn-cxx/name.cpp:Name::Name(std::string_view)','ndn-cxx/name-component.cpp:Component::fromUri','ndn-cxx/name-component.cpp:Component::toUri','ndn-cxx/impl/name-component-types.hpp:ComponentTypeTable'])
P('C15','URI parsing yields only valid components',
  'For every string, Component::fromUri either fails or returns a component that passes component validation (type 1..65535; 32-byte digests).',
  'every string','infinite input space',
  ['ndn-cxx/name-component.cpp:Component::fromUri','ndn-cxx/name-component.cpp:Component::ensureValid'])
P('C16','Naming conventions round trip and are recognised',
  'For each of segment, byte offset, version, timestamp and sequence number and for each convention in force, the component made from a number is recognised by the corresponding predicate when decoding accepts that convention, converts back to the same number, and is not recognised as any other kind under the typed convention.',
  'every number below 2^64, every kind, both conventions','2^64 values per kind',
  ['ndn-cxx/name-component.cpp:Component::fromSegment','ndn-cxx/name-component.cpp:Component::toSegment','ndn-cxx/name-component.cpp:Component::isSegment','ndn-cxx/name-component.cpp:Component::isNumberWithMarker'])
P('C17','Name editing never yields a stale encoding',
  'After any sequence of append, appendX, set, erase and clear calls interleaved with wireEncode and hash queries, the wire encoding decodes to exactly the current list of components and equals the encoding of a freshly built equal name.',
  'every finite sequence of operations','cached wires go stale only after particular interleavings',
  ['ndn-cxx/name.cpp:Name::wireEncode','ndn-cxx/name.cpp:Name::append','ndn-cxx/name.cpp:Name::set','ndn-cxx/name.cpp:Name::erase','ndn-cxx/name.hpp:Name::clear'])
P('C18','Sub-name selection',
  'getSubName(i,n) and getPrefix(n) with non-negative or negative arguments select the documented components: the i-th (or i-th from the end) onward, at most n of them; getPrefix(-n) drops the last n; at(i) throws exactly outside [-size,size).',
  'all names and all (signed/unsigned 64-bit) arguments','all argument values incl. wrap-around',
  ['ndn-cxx/name.cpp:Name::getSubName','ndn-cxx/name.hpp:Name::getPrefix','ndn-cxx/name.cpp:Name::at','ndn-cxx/name.hpp:Name::get'])
P('C19','Equal names and components hash equally',
  'If two names compare equal then std::hash gives the same value, so unordered containers find them.',
  'all pairs of names, however they were constructed or decoded','all pairs; depends on the encoding they were decoded from',
  ['ndn-cxx/name.cpp:std::hash<Name>','ndn-cxx/name-component.hpp:Component::operator=='])
P('C20','Percent escaping round trip',
  'unescape(escape(s)) = s for every byte string s and escape(s) consists only of unreserved characters and %HH triples; unescape leaves malformed escapes untouched.',
  'every byte string','infinite set',
  ['ndn-cxx/util/string-helper.cpp:escape','ndn-cxx/util/string-helper.cpp:unescape'])
# ---------------------------------------------------------------- Packets
P('C21','MetaInfo round trip and reset on decode',
  'Decoding an encoded MetaInfo gives an equal MetaInfo, and decoding into an object that previously held other values leaves nothing of them behind.',
  'all MetaInfo values and all previous contents','combination of field presence and previous contents',
  ['ndn-cxx/meta-info.cpp:MetaInfo::wireEncode','ndn-cxx/meta-info.cpp:MetaInfo::wireDecode'])
P('C22','KeyLocator and SignatureInfo round trip',
  'Decoding an encoded KeyLocator or SignatureInfo (Data or Interest variant) gives an equal object; the emitted TLV-TYPE is that of the requested variant.',
  'all field combinations, both variants, all call histories','combinations of optional/custom fields and caching',
  ['ndn-cxx/key-locator.cpp:KeyLocator','ndn-cxx/signature-info.cpp:SignatureInfo::wireEncode','ndn-cxx/signature-info.cpp:SignatureInfo::wireDecode'])
P('C23','Data round trip',
  'For every Data (any name, MetaInfo, content, SignatureInfo, signature value), decoding its wire encoding gives equal fields, and re-encoding gives the same bytes.',
  'all Data packets','infinite set',
  ['ndn-cxx/data.cpp:Data::wireEncode','ndn-cxx/data.cpp:Data::wireDecode'])
P('C24','Data setters never leave a stale wire or full name',
  'After any sequence of setters interleaved with wireEncode/getFullName, wireEncode() decodes to the current field values and getFullName() is the name plus the digest of that encoding.',
  'every finite sequence of operations','stale caches show only in particular interleavings',
  ['ndn-cxx/data.cpp:Data::resetWire','ndn-cxx/data.cpp:Data::getFullName','ndn-cxx/data.cpp:Data setters'])
P('C25','Data/Interest evolvability: unknown elements',
  'Data and Interest decoding accept an encoding with unknown non-critical elements inserted after the name (in an Interest: before its ApplicationParameters, since later elements become parameters) and yield the same fields, reject it if an unknown element is critical, and reject recognised elements that are out of order or (other than the tolerated cases) repeated.',
  'every packet, every position and every unknown element','infinite combinations',
  ['ndn-cxx/data.cpp:Data::wireDecode','ndn-cxx/interest.cpp:Interest::wireDecode','ndn-cxx/encoding/tlv.hpp:tlv::isCriticalType'])
P('C26','Data signed portion covers everything but the signature',
  'For every decoded Data the signed range reported by extractSignedRanges starts at the Name element and ends just before the SignatureValue element, so it covers all of name, MetaInfo, content and SignatureInfo byte for byte, and two packets with equal signed bytes have equal name, MetaInfo, content and SignatureInfo.',
  'every byte string that decodes as Data','hostile encodings',
  ['ndn-cxx/data.cpp:Data::extractSignedRanges','ndn-cxx/data.cpp:Data::wireDecode'])
P('C27','Full names identify Data (up to digest collisions)',
  'If the digest function does not collide on two encodings, Data with equal full names have equal encodings; the full name has the name as a prefix and one more component of type ImplicitSha256Digest and length 32.',
  'all pairs of Data','all pairs',
  ['ndn-cxx/data.cpp:Data::getFullName'])
P('C28','Interest round trip',
  'For every Interest, decoding its wire encoding gives equal fields; defaults are restored for absent fields.',
  'all Interests','infinite set, field combinations',
  ['ndn-cxx/interest.cpp:Interest::wireEncode','ndn-cxx/interest.cpp:Interest::wireDecode'])
P('C29','Parameters digest stays consistent',
  'After any sequence of setName, setApplicationParameters, unsetApplicationParameters, setSignatureInfo, setSignatureValue calls that succeed, the name contains at most one parameters-digest component, contains one exactly when there are application parameters, and its value is the digest of the current parameters elements (isParametersDigestValid).',
  'every finite sequence of operations from a default Interest','histories; order of calls matters',
  ['ndn-cxx/interest.cpp:Interest::setName','ndn-cxx/interest.cpp:Interest::setApplicationParametersInternal','ndn-cxx/interest.cpp:Interest::addOrReplaceParametersDigestComponent','ndn-cxx/interest.cpp:Interest::isParametersDigestValid'])
P('C30','Interest-Data matching',
  'Interest::matchesData accepts exactly: same name; or same full name; or, with CanBePrefix, a Data whose name or full name has the Interest name as prefix, as specified by the packet format.',
  'all Interest/Data pairs','all pairs',
  ['ndn-cxx/interest.cpp:Interest::matchesData'])
P('C31','Interest signed portion covers name, parameters and SignatureInfo',
  'For every signed Interest produced by the library, the signed ranges are the name components except a trailing parameters digest, and the parameters elements up to but excluding the signature value; every such byte is covered.',
  'every signed Interest, encoded or decoded','hostile element orders',
  ['ndn-cxx/interest.cpp:Interest::extractSignedRanges'])
# ---------------------------------------------------------------- LP
P('C32','lp::Packet is a typed multimap of fields with canonical encoding',
  'After any sequence of add/set/remove/clear, fields are encoded in canonical order (fragment last), has/count/get/list report exactly the stored occurrences, and decoding the encoding gives the same packet.',
  'every finite sequence of operations','histories',
  ['ndn-cxx/lp/packet.cpp:Packet::wireEncode','ndn-cxx/lp/packet.cpp:Packet::wireDecode','ndn-cxx/lp/packet.hpp:Packet::add','ndn-cxx/lp/packet.hpp:Packet::set','ndn-cxx/lp/packet.hpp:Packet::remove'])
P('C33','lp::Packet decoding: unknown and misplaced fields',
  'Decoding accepts exactly sequences in which recognised fields are in order and not repeated unless repeatable, and unknown fields are ignorable; a bare network-layer packet decodes as a packet with only a fragment.',
  'every element sequence','infinite input space',
  ['ndn-cxx/lp/packet.cpp:Packet::wireDecode','ndn-cxx/lp/packet.cpp:FieldInfo'])
P('C34','Nack reasons: severity order and aggregation',
  'isLessSevere is a strict total order on reasons in which NONE is the most severe, and an unknown reason code is reported as NONE.',
  'all reasons (all 64-bit codes)','2^64 codes, triples',
  ['ndn-cxx/lp/nack-header.cpp:isLessSevere','ndn-cxx/lp/nack-header.cpp:NackHeader::getReason'])
# ---------------------------------------------------------------- Scheduler / signals / util
P('C35','Scheduler executes each event at most once, in time order, never early',
  'For any history of schedule/cancel calls (also from inside callbacks) and timer firings, an event runs at most once, not before its expiry, in order of expiry time (insertion order among ties), never after it was cancelled, and every non-cancelled event due at a timer firing runs in that firing.',
  'every finite history of operations, clock advances and callbacks','unbounded interleavings',
  ['ndn-cxx/util/scheduler.cpp:Scheduler::schedule','ndn-cxx/util/scheduler.cpp:Scheduler::executeEvent','ndn-cxx/util/scheduler.cpp:Scheduler::cancelImpl','ndn-cxx/util/scheduler.cpp:Scheduler::scheduleNext'])
P('C36','Signal emission',
  'Emitting a signal calls exactly the handlers connected when emission starts and not disconnected before their turn, once each, in connection order; a handler may disconnect itself; a disconnected handler is never called again; single-shot handlers run once.',
  'every finite history of connect/disconnect/emit incl. from handlers','re-entrancy and histories',
  ['ndn-cxx/util/signal/signal.hpp:Signal::operator()','ndn-cxx/util/signal/signal.hpp:Signal::connect','ndn-cxx/util/signal/connection.cpp'])
P('C37','RTO stays within its bounds',
  'After any sequence of RTT measurements and back-offs (at least one), the estimated RTO lies in [minRto, maxRto]; back-off multiplies it by the back-off factor up to the maximum.',
  'every finite sequence of samples and back-offs, every option set accepted','unbounded sequences',
  ['ndn-cxx/util/rtt-estimator.cpp:RttEstimator::addMeasurement','ndn-cxx/util/rtt-estimator.cpp:RttEstimator::backoffRto'])
P('C38','Segmenter partitions the input',
  'For every input and every positive maximum segment size, the segments are numbered 0..k consecutively, each has at most the maximum size, their contents concatenated are the input, there is at least one, and each carries FinalBlockId k; a zero size is rejected.',
  'every byte string and segment size','infinite set',
  ['ndn-cxx/util/segmenter.cpp:Segmenter::segment'])
P('C39','SegmentFetcher delivers the complete content in order',
  'Whatever the order of arrivals, losses, Nacks, timeouts and validations, if the fetcher signals completion then the delivered buffer is the concatenation of the validated contents of segments 0..FinalBlockId in order; the in-order mode delivers each segment exactly once in order; after completion or error nothing more is signalled.',
  'every network behaviour (interleaving of Data, Nack, timeout, validation results)','unbounded interleavings',
  ['ndn-cxx/util/segment-fetcher.cpp:SegmentFetcher::afterValidationSuccess','ndn-cxx/util/segment-fetcher.cpp:SegmentFetcher::finalizeFetch','ndn-cxx/util/segment-fetcher.cpp:SegmentFetcher::checkAllSegmentsReceived'])
P('C40','Hex and transform chains are independent of chunking',
  'hexDecode(hexEncode(x)) = x for every x, and feeding a decoder/encoder its input in any division into chunks gives the same output as feeding it at once; decoding fails exactly on non-hex characters or odd total length.',
  'every byte string and every division into chunks','chunk boundaries are combinatorial',
  ['ndn-cxx/security/transform/hex-encode.cpp','ndn-cxx/security/transform/hex-decode.cpp','ndn-cxx/security/transform/transform-base.cpp'])
P('C41','Name regex matching means what the pattern says',
  'A name regex accepts exactly the names in the language denoted by the pattern (concatenation, sets, repetition, anchors, back-reference groups), and matching terminates for every pattern and name.',
  'every pattern and every name','infinite set; nullable repetitions',
  ['ndn-cxx/util/regex/regex-matcher.cpp:RegexMatcher::recursiveMatch','ndn-cxx/util/regex/regex-repeat-matcher.cpp:RegexRepeatMatcher::match','ndn-cxx/util/regex/regex-top-matcher.cpp:RegexTopMatcher::match'])
# ---------------------------------------------------------------- IMS
P('C42','In-memory storage never exceeds its limit',
  'For every sequence of insert, find, erase and setCapacity calls on an in-memory storage with limit L, the number of stored packets never exceeds the capacity, which never exceeds L, and no operation takes an entry from an empty free pool.',
  'every limit, policy and operation sequence','histories of unbounded length',
  ['ndn-cxx/ims/in-memory-storage.cpp:InMemoryStorage::insert','ndn-cxx/ims/in-memory-storage.cpp:InMemoryStorage::setCapacity','ndn-cxx/ims/in-memory-storage.cpp:InMemoryStorage::erase'])
P('C43','In-memory storage lookup is sound and complete',
  'find(Interest) returns a stored packet that matches the Interest (name, CanBePrefix) and is fresh when MustBeFresh is set; it returns nothing only if no stored packet qualifies; find(Name) returns the first stored packet in canonical order whose full name has the given prefix.',
  'every store content and every Interest','all store contents',
  ['ndn-cxx/ims/in-memory-storage.cpp:InMemoryStorage::find','ndn-cxx/ims/in-memory-storage.cpp:InMemoryStorage::selectChild','ndn-cxx/ims/in-memory-storage.cpp:InMemoryStorage::findNextFresh'])
P('C44','Eviction policies',
  'FIFO evicts the packet inserted longest ago, LRU the one used longest ago, LFU one with the fewest uses; persistent never evicts; packets not evicted or erased remain retrievable.',
  'every operation sequence','histories',
  ['ndn-cxx/ims/in-memory-storage-fifo.cpp','ndn-cxx/ims/in-memory-storage-lru.cpp','ndn-cxx/ims/in-memory-storage-lfu.cpp','ndn-cxx/ims/in-memory-storage-persistent.hpp'])
P('C45','In-memory storage erase',
  'erase(prefix) removes exactly the packets whose name has the prefix, erase(fullName,false) exactly the packet with that full name; all others remain.',
  'every store content and prefix','all store contents',
  ['ndn-cxx/ims/in-memory-storage.cpp:InMemoryStorage::erase'])
P('C46','Freshness timers refer to the right packet',
  'A packet becomes stale exactly when its MustBeFresh window elapses; the timer of a packet that was erased or evicted never affects a packet later stored in the recycled entry.',
  'every history of insert/erase/evict and timer firings','recycling races are rare interleavings',
  ['ndn-cxx/ims/in-memory-storage-entry.cpp','ndn-cxx/ims/in-memory-storage.cpp:InMemoryStorage::insert'])
# ---------------------------------------------------------------- Face
P('C47','At most one outcome per expressed Interest',
  'For each expressed Interest at most one of the Data, Nack and timeout callbacks is invoked, at most once in total, and none after it is cancelled; every Interest still pending at its lifetime gets a timeout.',
  'every history of expressInterest, cancel, incoming packets and timer expirations','interleavings',
  ['ndn-cxx/impl/face-impl.hpp:Face::Impl','ndn-cxx/impl/pending-interest.hpp:PendingInterest','ndn-cxx/impl/record-container.hpp:RecordContainer'])
P('C48','Data satisfies exactly the matching pending Interests',
  'An incoming or locally produced Data removes exactly the pending Interests it matches, invokes the Data callback of each application-originated one once, and a Data put by the application is sent to the forwarder exactly when some forwarder-originated pending Interest matches it or no application-originated one does.',
  'every table content and every Data','all table contents',
  ['ndn-cxx/impl/face-impl.hpp:Face::Impl::satisfyPendingInterests','ndn-cxx/impl/face-impl.hpp:Face::Impl::putData'])
P('C49','Nack aggregation',
  'A pending Interest forwarded to n destinations is reported as Nacked only after all n have Nacked it, and with the least severe of the reasons received.',
  'every number of destinations and every order of Nacks','orders and counts',
  ['ndn-cxx/impl/pending-interest.hpp:PendingInterest::recordNack','ndn-cxx/impl/face-impl.hpp:Face::Impl::nackPendingInterests'])
P('C50','Interest dispatch to filters',
  'An Interest is delivered exactly to those filters that match its name and, for application-originated Interests, allow loopback; each once, none after the filter is unset.',
  'every filter table and history','histories',
  ['ndn-cxx/impl/face-impl.hpp:Face::Impl::dispatchInterest','ndn-cxx/impl/interest-filter-record.hpp:InterestFilterRecord::doesMatch'])
# ---------------------------------------------------------------- Security
P('C51','Validation success implies a trust chain',
  'If validation of a packet succeeds (and the policy did not waive certificates), there is a chain of certificates from a trust anchor to the packet in which each certificate was signature-verified with the next one\'s key, was within its validity period when processed, and each key use was authorised by the policy.',
  'every policy, certificate graph, store content and fetch behaviour (also hostile)','adversarial networks',
  ['ndn-cxx/security/validator.cpp:Validator','ndn-cxx/security/validation-state.cpp:ValidationState'])
P('C52','Validation terminates with exactly one outcome',
  'Every validation invokes exactly one of the success and failure callbacks exactly once, and requests at most the configured maximum number of certificates, whatever the network returns.',
  'every policy and fetch behaviour','cyclic or infinite certificate graphs',
  ['ndn-cxx/security/validator.cpp:Validator::requestCertificate','ndn-cxx/security/validation-state.cpp'])
P('C53','Signed Interest replay protection',
  'With timestamp, sequence number or nonce checking enabled, sequentially validated Interests accepted under the same key have strictly increasing timestamps / sequence numbers, respectively no repeated nonce within the remembered window.',
  'every history of Interests (accepted or rejected), keys and clock values','histories',
  ['ndn-cxx/security/validation-policy-signed-interest.cpp:ValidationPolicySignedInterest'])
P('C54','Command Interest replay protection',
  'Command Interests accepted under the same key have strictly increasing timestamps within the record lifetime, and the first accepted one is within the grace period of the clock.',
  'every history of commands, keys and clock values','histories',
  ['ndn-cxx/security/validation-policy-command-interest.cpp:ValidationPolicyCommandInterest'])
P('C55','Certificate cache never returns an expired certificate',
  'For any history of insertions, look-ups and clock values, a certificate returned by the cache was inserted, is not past its notAfter, and was inserted no longer ago than the maximum lifetime; look-up by prefix or Interest finds one whenever one is cached and unexpired.',
  'every history','histories',
  ['ndn-cxx/security/certificate-cache.cpp:CertificateCache'])
P('C56','Validity period arithmetic',
  'isValid(t) holds exactly for notBefore <= t <= notAfter at one-second resolution (notBefore rounded up, notAfter rounded down, so the encoded period never extends the requested one), and decode(encode(p)) = p.',
  'all time points','2^63 time points',
  ['ndn-cxx/security/validity-period.cpp:ValidityPeriod'])
P('C57','PIB default identity/key/certificate stay coherent',
  'After any sequence of PIB operations the default identity, key and certificate, when set, exist and belong to their parent; removing an object that is not the default does not change the default; removing a parent removes its children.',
  'every operation sequence','histories',
  ['ndn-cxx/security/pib/impl/pib-memory.cpp:PibMemory','ndn-cxx/security/pib/impl/pib-sqlite3.cpp:PibSqlite3'])
P('C58','Signed Interest timestamps are unique and increasing',
  'Successive timestamps generated by one InterestSigner are strictly increasing whatever the system clock does.',
  'every sequence of clock readings (also going backwards)','clock histories',
  ['ndn-cxx/security/interest-signer.cpp:InterestSigner::getFreshTimestamp'])
P('C59','Validator configuration: first matching rule decides',
  'Under a configured policy a packet is allowed only if the first rule whose filters all match accepts it; if no rule matches it is rejected; with the "any" trust anchor everything is accepted.',
  'every rule list and packet','all rule lists',
  ['ndn-cxx/security/validation-policy-config.cpp:ValidationPolicyConfig::checkPolicy','ndn-cxx/security/validator-config/rule.cpp:Rule'])
P('C60','Name relation and hierarchy checks',
  'The name-relation checks equal/is-prefix-of/is-strict-prefix-of, and the simple-hierarchy policy, accept exactly when the stated relation between signer identity and packet name holds.',
  'all names','all pairs of names',
  ['ndn-cxx/security/validator-config/name-relation.cpp:checkNameRelation','ndn-cxx/security/validation-policy-simple-hierarchy.cpp'])
P('C61','Trust anchors: groups are independent',
  'A certificate is a trust anchor exactly while some group lists it; refreshing or changing one group does not drop certificates listed by another.',
  'every history of group updates','histories',
  ['ndn-cxx/security/trust-anchor-container.cpp','ndn-cxx/security/trust-anchor-group.cpp'])
# ---------------------------------------------------------------- Management, transport
P('C62','ControlParameters round trip and flag bits',
  'Decoding encoded ControlParameters gives the same present fields and values; setFlagBit(b,v) makes getFlagBit(b)=v and leaves every other bit as it was, for every b below 64.',
  'all field combinations and all 64 bits','2^16 presence combinations times values',
  ['ndn-cxx/mgmt/nfd/control-parameters.cpp:ControlParameters'])
P('C63','Control command validation',
  'A command format accepts a parameter set exactly when every required field is present and every present field is required or optional (and Flags/Mask come together where both optional); applying defaults makes documented fields present without changing those given.',
  'all parameter sets, all commands','all presence combinations',
  ['ndn-cxx/mgmt/nfd/control-command.cpp'])
P('C64','StatusDatasetContext segmentation',
  'For any sequence of append calls followed by end, the segments sent are numbered consecutively from 0, contain the appended bytes in order and complete, each at most the maximum payload, exactly the last is marked final; nothing is sent after end or reject.',
  'every sequence of appends of any size','unbounded',
  ['ndn-cxx/mgmt/status-dataset-context.cpp:StatusDatasetContext'])
P('C65','Dispatcher prefixes are non-overlapping',
  'After any history of successful registrations no top-level prefix or handler prefix is a prefix of another, so an Interest reaches at most one handler; overlapping registration is rejected.',
  'every history of registrations','histories',
  ['ndn-cxx/mgmt/dispatcher.cpp:Dispatcher::addTopPrefix','ndn-cxx/mgmt/dispatcher.cpp:Dispatcher::checkPrefix'])
P('C66','Stream transport re-frames packets independently of segmentation',
  'However the bytes of a sequence of TLV packets (each at most the maximum packet size) are divided into socket reads, the receive callback gets exactly those packets in order.',
  'every packet sequence and every division into reads','read boundaries are combinatorial',
  ['ndn-cxx/transport/detail/stream-transport-impl.hpp:StreamTransportImpl::asyncReceive'])
P('C67','Stream transport sends in order, exactly once, and does not stall',
  'Packets passed to send are written to the socket in order, each at most once, and while connected every queued packet is eventually written, across pause and resume.',
  'every history of send/connect/pause/resume/close and completions','interleavings',
  ['ndn-cxx/transport/detail/stream-transport-impl.hpp:StreamTransportImpl::send'])
P('C68','Notification subscriber requests consecutive notifications',
  'After receiving notification n the subscriber requests exactly n+1; decoding errors, Nacks and timeouts fall back to the initial Interest; after stop nothing is requested or delivered; back-off doubles on repeated Nacks of the same sequence number.',
  'every history of Data, Nack, timeout and stop','histories',
  ['ndn-cxx/util/notification-subscriber.cpp'])
P('C69','Link delegations',
  'A Link built by addDelegation has no duplicate delegations, keeps insertion order, encodes them so that decoding gives the same list; removeDelegation removes all occurrences and reports whether any existed.',
  'every operation sequence','histories',
  ['ndn-cxx/link.cpp:Link'])
P('C70','Prefix announcement and metadata object structure',
  'A prefix announcement or metadata object is accepted exactly when the packet name ends with the keyword, version and segment components and the content is as specified, and encoding then decoding returns the same announced name, expiration and validity period / versioned name.',
  'all packets','infinite set',
  ['ndn-cxx/prefix-announcement.cpp','ndn-cxx/metadata-object.cpp'])
exec(open(os.path.join(os.path.dirname(__file__),'props_more.py')).read()) if os.path.exists(os.path.join(os.path.dirname(__file__),'props_more.py')) else None
with open(OUT,'w') as f:
    for r in rows: f.write(json.dumps(r)+'\n')
print(len(rows))
