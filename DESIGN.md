# Formal model of ndn-cxx in Lean 4 — design

## Layout

* `lean/Verif/<Area>/Model.lean`   – executable model; every definition cites the `/repo` lines it models.
* `lean/Verif/<Area>/Spec.lean`    – small, independent specification vocabulary (what the English property says).
* `lean/Verif/<Area>/Lemmas*.lean` – helper lemmas.
* `lean/Verif/<Area>/Props.lean`   – the property theorems, each with an `example` showing its hypotheses are satisfiable.

(Small areas put Spec next to Model in one file; property theorems are always in `Props*.lean`.)

Conventions: `Bytes = List UInt8`; C++ `uint64_t`/`size_t` values are `Nat` with explicit bounds, and where
wrap-around matters the wrap is explicit (`% 2^64`). Exceptions are `Except Err`/`Option`; undefined behaviour is a
distinct outcome. SHA-256, signatures, random numbers and clocks are parameters. Callbacks are either parameters or
recorded as output events.

## Trusted base

* Lean 4.33's kernel. Every theorem of MANIFEST.json depends on at most the axioms `propext`, `Classical.choice` and
  `Quot.sound` (vcheck prints them; `#print axioms` shows them one by one). No `sorry`, `native_decide`, `bv_decide`,
  `implemented_by` or axioms of our own. `decide +kernel` is used for closed facts, mostly for witnesses.
* The hand-written model is taken to be faithful to the C++ text. The code was never run. Each definition cites the lines
  it models and says where it simplifies.
* What is assumed of things outside the code is either a parameter that the theorems quantify over, or a hypothesis stated
  in the theorem: SHA-256 and signatures (`C27`, `C93`: a signature made with a private key verifies with its public key),
  the random number generator, clocks, `std::regex` over component texts (`C41`, `C59`), the address library of Boost.Asio
  (`C97`, `C100`: it reads back what it prints), the rules of Boost.Asio for pending and cancelled operations (`C66`, `C67`,
  `C84`, `C101`), SQLite's execution of single statements with their triggers (`C57`), the order in which `std::multiset`
  and `std::multimap` keep equal keys (insertion order).
* All code runs on one thread, as the library requires: events are handled one after another, in any order the theorems
  quantify over, and handlers may call back into the objects where the area's model says so.

## Coverage

| area | code modelled (under ndn-cxx/) | left out or simplified |
|---|---|---|
| Tlv | encoding/tlv.hpp, the integer part of encoding/block-helpers | streams of non-contiguous iterators |
| Encoder | encoding/encoder, estimator, encoding-buffer | memory allocation failure |
| Block | encoding/block, buffer | sharing of buffers: a Block owns its octets |
| Hex | util/string-helper (hex, escape), security/transform: hex-encode, hex-decode, strip-space, chains of filters | cryptographic transforms, Base64 (OpenSSL) |
| Name | name, name-component, impl/name-component-types, name conventions | the implicit-digest and parameters-digest sizes are checked as in the code; `std::hash` of octets is a parameter |
| Packet | meta-info, key-locator, signature-info, data | SHA-256 is a parameter |
| Interest | interest, signed ranges, matchesData | the random nonce is an argument |
| Lp | lp/packet, fields, nack, nack-header, cache-policy, pit-token, empty-value, prefix-announcement-header | |
| Sched | util/scheduler | the timer is the event "time passes" |
| Signal | util/signal | |
| Rtt | util/rtt-estimator | the floating-point averages are arbitrary functions |
| Segmenter | util/segmenter | the KeyChain is a parameter |
| Fetch | util/segment-fetcher | validator and Face are event sources; congestion window arithmetic is a parameter |
| Regex | util/regex | `std::regex` inside `<...>` is a parameter |
| Ims | ims | |
| Face | face, impl/face-impl, pending-interest, interest-filter-record, registered-prefix, record-container | transport; encoding of what is sent (areas Interest, Packet, Lp) |
| Validator | security/validator, validation-state, certificate-storage, certificate-fetcher, -from-network, -offline | policies are functions; the direct and bundle fetchers |
| Cert | security/certificate-cache, validity-period, calendar conversions of util/time | |
| Replay | security/validation-policy-signed-interest, -command-interest, interest-signer | |
| Config | security/validator-config/*, validation-policy-config, -simple-hierarchy | the property tree parser of Boost |
| Anchors | security/trust-anchor-container, -group | file system and clock are arguments |
| Pib | security/pib: pib-memory, pib-sqlite3 with its schema, pib, identity, key, containers | SQLite itself; the TPM locator |
| KeyChain | security/key-chain, tpm/tpm, tpm/back-end(-mem), signing-info | key parsing and encryption (OpenSSL); the file and macOS TPM back ends; locators (area Locator) |
| Mgmt | mgmt/dispatcher, status-dataset-context, nfd/control-parameters, nfd/control-command | |
| Nfd | mgmt/control-response, mgmt/nfd: channel-, face-, fib-, rib-, strategy-, forwarder-status, cs-info, face-query-filter, face-event-notification, status-dataset, controller | printing (`operator<<`) |
| Transport | transport/detail/stream-transport-impl, -with-resolver-impl, tcp-, unix-transport | sockets: events |
| Notify | util/notification-subscriber | the Face and the handlers are event sources |
| Object | link, prefix-announcement, metadata-object | |
| Net | net/face-uri, ethernet, dns | address library (parameter); `sscanf` for the one format used |
| Bag | security/additional-description, safe-bag, certificate | printing of certificates |
| Logging | util/logging, util/logger: which level each logger has | what is written where (Boost.Log), time stamps |
| Fetcher | security/certificate-fetcher and its kinds: -bundle, -from-network, -direct-fetch, -offline | the order in which the face answers several validations; their caches meet in `other` |
| Pipe | security/transform: transform-base, buffer-source, stream-source, step-source, stream-sink, bool-sink, all modules as functions; util/sha256, util/io on octets, verification-helpers on octets | OpenSSL itself, output streams that fail |
| Verify | security/verification-helpers on Data and Interest packets that were received; KeyChain::sign(Interest) in the old format | certificates as a source of the key, packets not made from an encoding |
| Netlink | net/impl/netlink-message.hpp, netlink-socket.cpp (receiving, dispatch, dump requests), network-monitor-impl-netlink.cpp, network-interface.cpp, network-address.hpp | big-endian hosts, the order of the set of addresses, extended acknowledgements (logged only), generic netlink; what the system sends is arbitrary input |
| KeyFile | security/tpm/impl/back-end-file.cpp, security/tpm/back-end.cpp, security/tpm/tpm.cpp, security/transform/stream-sink.cpp (as used there) | the encodings (PKCS #1, PKCS #8), the digests in file names and key names, key generation (parameters with stated laws); the location of the directory; HMAC keys (refused by this back end); files of other owners, unreadable files and directories that cannot be searched; other programs changing the directory in the middle of a call; power failures that lose what was written |
| Locator | security/key-chain.cpp (constructors, locators, defaults), security/pib/pib.cpp (`setTpmLocator`, `reset`) | failures to open a back end; what a PIB holds beside keys and its TPM locator; how a location becomes a path (a parameter); crashes in the middle of creating and deleting keys (KeyChain, KeyFile) |
| Bundle | security/detail/certificate-bundle-decoder | the constructor of Certificate (area Bag) is a parameter |
| Dial | face.cpp makeDefaultTransport, transport/unix-transport and tcp-transport (addresses), util/config-file | Boost's reader of property trees (what reading a file gives is a parameter); systems other than Linux |
| Scoped | detail/cancel-handle, util/signal/connection, util/signal/scoped-connection | functions that cancel and use handles themselves |
| Ndnsec | tools/ndnsec: key-gen, delete, set-default, get-default, cert-install, import, sign-req, cert-gen, cert-dump, util (getCertificateFromPib), main | list, export, unlock-tpm, parsing of options, help, prompts, files and base64, `--pretty` |
| Flow | compositions over the wire of the models above: util/segmenter with util/segment-fetcher, mgmt/dispatcher (sendData and its callers) with util/segment-fetcher, mgmt/nfd/controller and util/notification-subscriber | see those |
| Secure | security/key-chain.cpp: sign(Interest) with the PIB and the TPM; compositions of KeyChain, Interest, Packet and Verify | see those |
| Dummy | util/dummy-client-face.cpp: linkTo, unlink, enableBroadcastLink, enableRegistrationReply | packet logging, processEventsOverride, the constructors |
| Text | encoding/nfd-constants.cpp, util/indented-stream.cpp, util/ostream-joiner.hpp | stream flags and locales |
| Link | impl/face-impl.hpp (header fields, finishEncoding), face.cpp (onReceiveElement), impl/lp-field-tag.hpp, util/dummy-client-face.cpp (construct, receive) | transports; decoding of the Interest or Data inside is C23, C28 |
| Stub | net/network-monitor-stub.cpp, detail/tag-host.hpp | renaming of interfaces; connecting and disconnecting during a signal (C36) |
| KeyParams | security/key-params, the requests of security/transform/private-key.cpp (generate functions), tpm/back-end.cpp createKey with the checks of both back ends | key generation (OpenSSL); conversion of sizes beyond 32 bits; macOS |

Not modelled at all: the other command-line tools, printing for debugging, the C++ type
system tricks (concepts, span-lite, scope-lite), macOS code.

## Plan per property

| id | modelled | proof |
|----|----------|-------|
| C01 | `writeVarNumber`, `readVarNumber`, `sizeOfVarNumber` over byte lists | case split on the four ranges, big-endian lemmas |
| C02 | same + `readType` | structural; result depends on consumed prefix |
| C03 | NNI reader/writer/size, `readNonNegativeIntegerAs` | same |
| C04 | `Encoder` buffer as array + [begin,end) window, reserve/realloc; `Estimator` | refinement to `List` deque, induction over operations |
| C05 | `Block` encode, `fromBuffer`, span constructor, `parse` | mutual induction over element trees |
| C06 | `fromBuffer`, span constructor | iff-characterisation of success, prefix stability |
| C07 | `parse` with its element cache and the exception points | invariant; negation witness for retry after exception |
| C08 | Block object: type, value, elements, wire cache | refinement to list of elements |
| C09 | `fromStream` with 64-bit arithmetic | characterisation; overflow witness |
| C10–C13 | Component/Name compare, successor | order theory on lists, successor leastness |
| C14,C15,C20 | escape/unescape, component types table, URI parser/printer | round trip by induction |
| C16 | naming conventions | NNI round trip |
| C17 | Name object with cached wire | invariant over operations |
| C18 | getSubName/getPrefix/at with wrap | arithmetic |
| C19 | hash of wire bytes (abstract hash) | function congruence; witness for non-minimal wires |
| C21–C28 | MetaInfo, KeyLocator, SignatureInfo, Data, Interest codecs | round trip via generic element-list decoder lemmas |
| C29 | Interest object operations with abstract digest | invariant over operations |
| C30 | matchesData | iff |
| C31 | extractSignedRanges | characterisation + witness for hostile order |
| C32,C33 | lp::Packet | invariant + round trip |
| C34 | NackReason | order lemmas |
| C35 | Scheduler as state machine over a queue ordered by time; callbacks as programs | invariant over histories |
| C36 | Signal as slot list, handlers as programs | invariant |
| C37 | RttEstimator with exact integer arithmetic for RTO clamp | invariant |
| C38 | Segmenter | induction |
| C39 | SegmentFetcher state machine | invariant |
| C40 | hex transforms with chunk state | monoid action argument |
| C41 | regex matcher over component lists | soundness always; completeness for non-nullable; divergence witness |
| C42–C46 | InMemoryStorage state machine, policies | invariants; witness for limit < 16 |
| C47–C50 | Face pending-interest/filter tables | invariants over histories |
| C51,C52 | Validator as recursive process over fetch oracle | invariants |
| C53,C54 | signed/command interest policies | invariants over histories |
| C55 | CertificateCache | invariant with history |
| C56 | ValidityPeriod | arithmetic |
| C57 | PibMemory & sqlite triggers | invariants; witness for removeKey |
| C58 | InterestSigner timestamp | induction |
| C59,C60 | config policy, rules, checkers | decision logic |
| C61 | trust anchor groups | witness for shared container + partial |
| C62,C63 | ControlParameters, command formats | round trip; witness for bit ≥ 31 |
| C64 | StatusDatasetContext | invariant |
| C65 | Dispatcher prefixes | invariant |
| C66,C67 | stream transport | refinement; stall witness |
| C68 | NotificationSubscriber | invariant |
| C69 | Link | refinement |
| C70 | PrefixAnnouncement, MetadataObject | round trip |
| C71 | Block `operator==`, `size` before and after `encode` | cases on the wire cache |
| C72 | Name decoding | characterisation; witness |
| C73–C77 | Interest objects: setters, signing ranges, digest | invariants over histories; witnesses |
| C78 | IMS iteration | invariant |
| C79 | SegmentFetcher | progress: every stuck state is excluded by an invariant |
| C80 | prefix registration | invariant over histories |
| C81 | PIB front end with handles and caches | simulation of the back ends |
| C82,C83 | dispatcher as event machine | each observation as a function of the past |
| C84 | stream transport | invariants; witnesses for the races |
| C85–C90 | NFD management items | one generic codec, its round trip and acceptance proved once |
| C91 | controller as event machine | each observation as a function of the past |
| C92–C96 | KeyChain as state and exception monad over Pib and Tpm | invariant over histories; crash points as prefixes of the accesses |
| C97–C99 | FaceUri, Ethernet addresses, with a verified backtracking matcher for the expressions used | parsing as an iff with the grammar |
| C100,C101 | canonization, name resolution as event machine | decision logic; invariant over schedules |
| C102 | AdditionalDescription as object with cached encoding | decoding as an iff; invariant over histories |
| C103,C104 | SafeBag and Certificate over the Data model | iff with the accepted elements; round trip |
| C105 | exportSafeBag added to the KeyChain model | simulation of both histories, then one import step |
| C106 | table of levels, loggers, search by prefixes | invariant over histories: the table agrees with the last matching rule |
| C107 | splitting and parsing of the text | iff with the pairs, uniqueness |
| C108 | one validation: requests, the bundle fetcher in front of one of three others, the cache, answers of the network | invariants over histories; a measure that Nacks and timeouts lower |
| C109 | names of bundles, tags of the ValidationState | iff with the base of a name; invariant on the tag |
| C110 | Interests of the three fetchers | invariant over histories |
| C111 | pipelines of modules, sources and sinks | a simulation relation for each module, composed by induction over the pipeline |
| C112 | step source | the same relation over histories of calls |
| C113 | verifier filter, verifySignature and verifyDigest on octets | from C111; counterexample for HMAC |
| C114 | util::Sha256 | refinement of objects that keep their octets |
| C115 | loadBuffer, saveBuffer | from C111; base64 of RFC 4648 as an instance |
| C116 | parse(Data), verifySignature | iff with the parts of the packet (C26); authenticity from injectivity of the signed octets |
| C117 | parse(Interest), both formats | iff with the parts (C31); authenticity false in general, proved without components of type 36 |
| C118 | the same | false in general, proved for names that do not begin with a component of type 7: the first element of the signed octets |
| C119 | KeyChain::sign(Interest), old format | the encoding is decoded (C28) and parsed; two counterexamples, proved without them |
| C120 | loops over messages and attributes | against inductive specifications of datagrams and attribute lists, with uniqueness; counterexample for lengths not a multiple of four |
| C121 | the receiving loop with its handlers and the phases of the enumeration | invariants over all sequences of datagrams; counterexamples for number 0 and for errors |
| C122 | parseLinkMessage and the interfaces | a listener that only sees signals knows what there is, by induction over all datagrams; effect of each message; counterexample for bridges |
| C123 | parseAddressMessage and the addresses | the list is what was added and not removed since, by induction over the messages; counterexample for two prefix lengths |
| C124 | back end calls as functions on a directory of files with contents and permissions, in circumstances (space, rights, umask); every intermediate state is recorded | counterexamples to the full claim; lemma on all states of `saveKey`; simulation by a map from names to keys, over lists of calls |
| C125 | the same intermediate states are the crash points | case analysis on the states of a call; retry from any of them |
| C126 | permissions of files; reachable directories with crashes | counterexample; invariant over reachable directories |
| C127 | any number of `Tpm` objects with their kept handles over one directory | counterexample with two objects; invariant (kept handles are what is stored) over lists of calls |
| C128 | `parseLocatorUri`, the checks, `canonical` | iff-characterisation of the parsers; round trip; injectivity |
| C129 | the constructors as all states they pass through, with defaults kept in static members | case analysis of the linking; counterexamples by evaluation |
| C130 | a machine of KeyChains coming and going over databases and directories | invariant over lists of operations; counterexamples by evaluation |
| C131 | the buffer, the flag and the certificates emitted | decomposition of octets into elements (unique, exists); invariant over the segments |
| C132 | places of the configuration file, the environment, the URI | case analysis against a relation; uses C97 for the form of URIs |
| C133 | machine of scoped handles: objects, plain handles, operations called | conservation of counts over histories |
| C134 | machine of ScopedConnections and a signal | invariant over histories; step lemma for what cuts a connection |
| C135 | the commands as programs on the key chain model, run by new processes | each command against its specification; induction over commands |
| C136 | the same with the trail of the accesses | invariant of all states of the trail |
| C137 | two stores | composition of C135 |
| C138 | segmenter, wire format and fetcher composed: the fetcher sees octets | composition of C23, C38, C39; invariant of lossless fetches |
| C139 | StatusDatasetContext, Dispatcher::sendData, wire format and fetcher composed | composition of C23, C64, C39, C88 |
| C140 | Controller, Dispatcher and wire format composed | composition of C62, C63, C65, C82, C85, C91 |
| C141 | Dispatcher's notification streams, wire format and NotificationSubscriber composed | composition of C23, C83, C68; induction on the packets received |
| C142 | signInterest, encoder, decoder and verifier composed | composition of C28, C31, C117; case analysis on the parameters |
| C143 | KeyChain::sign(Data), sign(Interest) in both formats with PIB and TPM, composed with the verifier | composition of C92, C93, C116, C117, C119, C142 over histories |
| C144 | InterestSigner composed with both replay policies: what arrives under a key is a sublist of what the signer made | invariant that records come from arrivals, then C53_accepts, C54_accepts with C58 |
| C145 | rib/announce: request and parameters as a prefix announcement in ApplicationParameters | composition of C70, C23, C142 and C28; parsing as an iff |
| C146 | makeCertificate and selfSign with PIB and TPM, composed with the receiver: Certificate(Block), getters, isValid, verification of the certificate and with the certificate | composition of C96, C104, C56, C22, C116 over histories |
| C147 | the links of dummy faces: linkTo, unlink, the delivery loops with callbacks that call them | invariant over histories against a recursive specification of who hears whom |
| C148 | the made-up answers to registrations, composed with the codecs and validations of commands and responses | case analysis over fields; composition of C62, C63, C85, C91 |
| C149 | printing of the management enumerations, extraction of route origins from a stream | case analysis; decimal and hexadecimal notation by induction; reader for flags as left inverse |
| C150 | the buffer of IndentedStream with its splitting at newlines | induction over the operations and texts; uniqueness of lines |
| C151 | the lp::Packet operations of sending and receiving, on the model of C32 | exact octets by computing the inserted fields; characterisation of reception through C33; composition |
| C152 | the map of interfaces, signals to observers with reactions, nested calls | invariant over all call histories by induction on the nesting depth |
| C153 | the map of tags of each packet | refinement to a table |
| C154 | `Component::fromUri` and the path part of `Name(text)` against the grammar of the URI scheme (Name/TextSpec.lean) | exact characterisation, by cases and induction over the pieces |
| C155 | key parameter objects, the requests for generation and the naming of keys in the two back-ends (KeyParams) | exact characterisation; induction over calls of setKeyId |

## Findings (code versus property)

Where a property is false of the code, its full statement is kept as a definition (`..._claim`) or in the theorem, the
negation is proved with a concrete witness (`..._counterexample`), and what does hold is proved as `..._partial`. The
proved negations are:

<!-- generated by tools/design.py -->

| theorem | what it shows |
|---|---|
| `C07_repeat_counterexample` | C07: the full statement is false of the code: value `01 00 \| 05` (a complete element followed by half a header). The first `parse()` throws but leaves the first element in the element list, so the second call returns normally and the trailing octet is silently ignored. |
| `C09_counterexample` | C09: the full statement is false of the code: for a header announcing 2^64-1 octets the size check `tlSize + length > MAX` is passed by wrap-around. |
| `C10_nonminimal_counterexample` | C10: false of the code: the component `8=A` decoded from `08 01 41` and from `08 FD 00 01 41` is equal by `==` but not by `compare`. |
| `C10_size_counterexample` | C10: the size restriction is needed: the difference of sizes is cut to an `int`, so that an empty component without encoding compares equal to one of 2^32 octets. |
| `C11_subrange_counterexample` | C11: false of the code for a start position beyond the end: `size() - pos1` wraps around and components outside the name are read. |
| `C14_alternate_counterexample` | C14: false of the code in the alternate format: the component 50=%00%01 prints as `seg=1`, which parses as the component 50=%01. |
| `C18_getPrefix_counterexample` | C18: false of the code when more components are to be dropped than there are: the whole name is returned instead of the empty one. |
| `C18_getSubName_counterexample` | C18: false of the code for a very large count other than `npos`: the sum wraps around and the result is empty, although "all components until the end" is documented. |
| `C19_counterexample` | C19: false of the code: `/A` decoded from `07 03 08 01 41` and from `07 FD 00 03 08 01 41`. The hash is of the octets, so any hash that separates them gives different values. |
| `C21_reencode_counterexample` | The claim fails: `FreshnessPeriod = 0` followed by a late ContentType (kept as an application element) is re-encoded without the FreshnessPeriod, and then the ContentType is recognised. |
| `C21_reset_counterexample` | The claim fails: application elements of the previous contents stay. |
| `C22_variant_counterexample` | The claim fails: encode as Data SignatureInfo, then as InterestSignatureInfo: the cached element of the other variant is returned. |
| `C24_stale_counterexample` | The claim fails: with a SignatureInfo but no signature value the first `wireEncode()` throws, and the second returns the malformed octets. |
| `C29_setName_counterexample` | The claim fails: `setName` accepts a name with a digest component although there are no parameters (`wireEncode` then refuses). |
| `C31_concat_counterexample` | The claim fails: the boundary between name and parameters is not part of the signed octets. The same signature is therefore valid for both Interests. |
| `C31_siginfo_counterexample` | The claim fails: with the signature value before the SignatureInfo, the latter is not covered. |
| `C32_encode_counterexample` | Encoding can fail on a packet every call of whose construction succeeded: octets that are not a TLV throw, an empty fragment makes `wireEncode` read the front of an empty vector, and octets after the first TLV are lost. |
| `C32_nested_counterexample` | It fails: a packet whose only field is a fragment that itself is an LpPacket (here: one carrying a CongestionMark) is encoded as that inner packet. |
| `C32_set_counterexample` | A field that cannot be encoded leaves `set` half done: the old value is gone. |
| `C34_unknown_counterexample` | It fails for codes that do not fit in an `int`. |
| `C36_singleShot_counterexample` | A single-shot handler that throws is not disconnected and runs again. |
| `C36_zombie_counterexample` | It fails: a handler that disconnects itself and then throws stays in the list, although its connection reports that it is disconnected, and is called by the next emission. |
| `C39_baseSegment_counterexample` | The Interest given ends with a segment number, and times out. |
| `C39_finalBlock_counterexample` | Segment 3 is being validated when segment 2 says it is the last one. |
| `C39_handler_stop_counterexample` | A handler of `afterSegmentTimedOut` stops the fetcher. |
| `C39_object_counterexample` | The first Interest is retransmitted, and both are answered, the first one late, with different versions: the buffer mixes two versions. |
| `C39_revalidation_counterexample` | Segment 1 times out while the window is full; then its Data arrives and is being validated; when the window opens segment 1 is requested again, and a second packet is validated: the second validation uses the iterator erased by the first. |
| `C39_stop_counterexample` | A handler of `afterSegmentValidated` stops the fetcher, and completion is signalled all the same. |
| `C40_decode_chain_counterexample` | C40: false of the code: `HexDecode::finalize` replaces the default one and does not flush, so output that the next module did not take at once is lost at `end()`. |
| `C41_captures_counterexample` | A group that took no part in the match keeps what an earlier attempt captured. |
| `C41_component_counterexample` | `^<(.*)>$`: the group in the component expression captures the text of the URI, not the component: matching `/%00`, `\\1` expands to `/%2500`. |
| `C41_counterexample` | Matching does not end for every expression (`C41_terminates_counterexample`). |
| `C41_empty_counterexample` | For the empty text the last character of an empty string is read. |
| `C41_exact_counterexample` | The empty name is in the language of `^(<a>*){2}$` and does not match. |
| `C41_expand_counterexample` | A template that ends with a literal is an error, whatever was matched. |
| `C41_terminates_counterexample` | Matching `/b` with `^(<a>*)*$` does not end. |
| `C42_small_limit_counterexample` | With limit 1: after insert and erase the capacity is 16. |
| `C43_exact_counterexample` | An Interest with the full name of a stale packet gets that packet in spite of MustBeFresh. |
| `C44_exact_counterexample` | Packets 1 and 2 are stored, then 1 is retrieved by its full name: LRU still evicts 1. |
| `C45_erase_prefix_counterexample` | Packets named `/1` and `/1/<digest>/2`, where `/1/<digest>` is the full name of the first: erasing the prefix `/1/<digest>` erases neither. |
| `C47_cancel_counterexample` | `cancel` only posts a handler: a Data that arrives before the handler runs still reaches the callback. |
| `C47_throw_counterexample` | A Data callback that throws leaves the Interest pending: it is invoked again for the next matching Data. |
| `C47_timeout_throw_counterexample` | A timeout callback that throws leaves the Interest pending without a timeout event. |
| `C48_throw_counterexample` | A Data callback that throws ends the processing of the packet: its Interest and the later ones stay. |
| `C49_assert_counterexample` | The assertion that the count is not negative fails when the application puts a Nack for an Interest of the forwarder that matched no filter. |
| `C49_repeat_counterexample` | The filters that have put a Nack are not told apart: one that puts two makes the Interest reported although the forwarder never Nacked it. (Destinations: the forwarder and the filter; Nacks received from the forwarder: none.) |
| `C50_unset_counterexample` | `InterestFilterHandle::cancel` only posts a handler: an Interest that arrives before the handler runs is still delivered. |
| `C51_current_counterexample` | It may have expired: anchors are used whatever their validity period. |
| `C51_current_fetched_counterexample` | A fetched certificate may also have expired when the packet is accepted: its validity is checked when it arrives, not when the chain is complete. |
| `C51_reset_counterexample` | Certificates verified before with the old anchors are still trusted. |
| `C52_exception_counterexample` | A certificate without a validity period does: it can be sent by anyone. |
| `C52_throwing_counterexample` | A success callback that throws is followed by a call of the failure callback. |
| `C53_defined_counterexample` | A SignatureTime of 9223372036855 ms or more overflows the conversion to nanoseconds, even when timestamps are not checked. |
| `C53_overlap_counterexample` | Validations that overlap: the same Interest arrives twice before the first validation ends, and both are accepted. |
| `C53_rollback_counterexample` | The record takes the time of the validation that ends last, not the latest time: it can go back, and an Interest older than one already accepted is accepted later. |
| `C53_throw_counterexample` | The success callback runs before the record is made: when it throws, the Interest was accepted but is not remembered. |
| `C53_v02_counterexample` | Interests signed in the v0.2 format are passed to the inner policy without any check: they can be replayed. |
| `C54_defined_counterexample` | A timestamp near the end of the 64-bit range overflows the comparison with the grace period. |
| `C54_overlap_counterexample` | Overlapping validations accept the same command Interest twice. |
| `C55_defined_counterexample` | The claim fails: with the longest lifetime (`time::nanoseconds::max()`) the deadline overflows. |
| `C55_extend_counterexample` | The claim fails: a certificate already stored keeps its deadline. |
| `C55_inserted_counterexample` | The claim fails: when a certificate of the same name is still stored past its deadline, because nothing has been looked up since, the insertion is ignored and the next look-up removes the old one. |
| `C56_decode_defined_counterexample` | The claim fails: hours are not limited, so a text below the last representable one, `22620410T990000`, denotes an instant after it, and the conversion to nanoseconds overflows. |
| `C56_defined_counterexample` | The claim fails: rounding the latest instant up to a second overflows when it is compared. |
| `C56_errors_counterexample` | The claim fails: for a date that does not exist, such as `20220230T000000`, a `std::out_of_range` leaves `wireDecode`, which only translates `std::bad_cast`. |
| `C56_history_counterexample` | The claim fails: after a decode that failed, the period encodes to the octets that were refused. |
| `C57_memory_counterexample` | Removing a key that is not the default leaves the identity without a default key. |
| `C57_memory_default_lost_counterexample` | The same, seen by the caller: with two keys, removing the one that is not the default makes the look-up of the default key fail although the default key is still there. |
| `C57_memory_foreign_key_counterexample` | `pib-memory` takes the key of another identity as the default key. |
| `C57_sqlite_foreign_key_counterexample` | `pib-sqlite3` then changes the default of the other identity, and does not set that of the identity given. |
| `C59_counterexample` | A rule with filters for `/a` and `/b` captures `/a/x`. |
| `C59_exception_counterexample` | A received packet whose key locator is a name without `KEY` makes the check of such a rule throw. |
| `C59_history_counterexample` | `/b` signed with the key locator `/k` is refused by a new validator; after a packet with the key locator `/k/b` was checked, it is allowed: the group `(<>)?` takes no part in matching `/k` and keeps what it captured before. |
| `C59_ignored_counterexample` | The claim: a section with a property that is not part of the language is refused. Properties after `sig-type sha256` are ignored, so that a misspelt `key-locator` removes the restriction. |
| `C59_keyname_counterexample` | A checker that demands a key name (as in the documentation: `name /a/KEY/1`, `relation equal`) is never satisfied: the relation is checked against the identity `/a` only. |
| `C59_refused_counterexample` | The anchor `any` followed by a section with a misspelt name: `load` throws, and every packet is accepted from then on. |
| `C59_terminates_counterexample` | With the filter `^(<a>*)*$` the check of `/b` does not end. |
| `C59_undefined_counterexample` | Configurations on which reading is undefined: an empty `regex`; an empty `refresh`; a refresh period beyond 64 bits of nanoseconds. |
| `C61_counterexample` | A static group and a path both list `/a`; once the file is gone from the path, the certificate is not trusted any more. |
| `C61_defined_counterexample` | The period that a configuration without `refresh` stands for (`nanoseconds::max()`, see `C59`) overflows at once. |
| `C61_insert_counterexample` | A certificate lost in this way cannot be inserted again: its group already lists it. |
| `C61_orphan_counterexample` | Creating a group fails after the first certificate was read: the certificate stays trusted, though there is no group. |
| `C61_remove_counterexample` | Removing `/a` from a group that does not contain it withdraws the certificate of another. |
| `C62_bit31_counterexample` | Bit 31 is not a bit: `1 << 31` is negative as an `int` and is sign-extended, so setting it sets bits 32 to 63 too. |
| `C62_bit31_get_counterexample` | Reading bit 31 tells whether any of bits 31 to 63 is set. |
| `C62_bit32_counterexample` | From bit 32 on the shift is undefined behaviour. |
| `C62_flag_bits_counterexample` | Bit 31 is sign-extended to all higher bits. |
| `C66_counterexample` | A packet received in part before `pause` is lost by `resume`. |
| `C67_counterexample` | After `pause` during a write nothing is sent any more. |
| `C68_backoff_counterexample` | **C68**: the back-off rule fails for number 2^64 - 1: the first Nack already counts as the second. |
| `C68_delay_counterexample` | **C68 is false of the code**: the back-off grows without bound, and restarting does not reset it; on the 37th Nack the delay no longer fits the scheduler's clock. |
| `C68_timer_counterexample` | **C68 is false of the code**: `stop` leaves the back-off timer running, so after `stop` and `start` it replaces the Interest for number 6 by the initial Interest. |
| `C69_default_counterexample` | A default-constructed Link that is named and signed but given no delegations is encoded as an ordinary Data packet, which `Link` does not accept. |
| `C69_failed_decode_counterexample` | `wireDecode` of a Data packet that is not a Link throws, but the object has become that packet, with the old delegations. |
| `C70_exception_counterexample` | A validity period with an impossible date makes the constructor throw `std::out_of_range`. |
| `C70_expiration_counterexample` | A period of 2^63 ms or more is accepted and becomes negative. |
| `C70_signed_counterexample` | The packet is kept even when signing threw: the next `toData` returns it, unsigned. |
| `C71_counterexample` | C71: false of the code before `encode()`: two blocks with different elements compare equal. |
| `C72_counterexample` | C72: false of the code: no component is checked on decoding a name; e.g. a digest component of one octet, or TLV-TYPE 65536. |
| `C73_stale_counterexample` | The claim fails: encoding an Interest with an empty name throws, but the refused encoding is kept and returned by the next call. |
| `C74_setSignatureInfo_counterexample` | The claim fails for `setSignatureInfo` with a SignatureInfo that cannot be encoded: an empty ApplicationParameters has been added, without digest component. |
| `C75_trailing_counterexample` | The claim fails: the signature value is placed right after the SignatureInfo, so a parameter that followed it was signed but is no longer covered; the signed Interest does not verify. |
| `C76_repeated_counterexample` | The claim fails: a second ApplicationParameters element (here with value 8) is ignored and not covered by the digest. |
| `C78_empty_counterexample` | On an empty storage, `begin` dereferences the end iterator. |
| `C79_inOrder_counterexample` | In the in-order mode, with a flow control window of one segment, the first packet found is not segment 0: it fills the window, nothing is requested any more and no timer runs. |
| `C80_early_counterexample` | Unregistering before the registration is answered fails, and the prefix and its filter become active afterwards. |
| `C80_shutdown_counterexample` | `shutdown` forgets the registered prefixes but leaves their filters active: they can no longer be unregistered. |
| `C81_add_existing_counterexample` | An identity that exists already is not made the default by `addIdentity`, though there is no default. |
| `C81_bits_overwritten_counterexample` | It replaces the public key stored: when the PIB is opened again the key has other bits. |
| `C81_memory_counterexample` | With pib-memory, removing a key that is not the default one makes the next access to the default key undefined. |
| `C81_memory_default_key_counterexample` | With `pib-memory`, after a key that is not the default has been removed, `getDefaultKey` fails; if the default key had been asked for before, an assertion fails. |
| `C81_sqlite_counterexample` | setDefaultCertificate accepts a certificate with another public key. |
| `C81_stale_default_counterexample` | The default certificate that `getDefaultCertificate` gives is the one given before, after `addCertificate` has replaced it. |
| `C81_wrong_key_counterexample` | A certificate for another public key is accepted by `setDefaultCertificate`, though `addCertificate` refuses it. |
| `C82_memory_counterexample` | An Interest named exactly as an old-style command makes the dispatcher read past the end of the name. |
| `C83_counterexample` | Registering a stream can reset the numbers of another one, and two notifications get the same name. |
| `C84_close_counterexample` | A read that completed before `close` is still delivered after it, and dereferences a null pointer. |
| `C84_pause_counterexample` | **C84 fails.** A read that completed before `pause` is delivered after it. |
| `C85_failed_counterexample` | It is false: an element that has the StatusCode but no StatusText is refused, but the object is emptied, takes the code of the refused element, and encodes to the refused element. |
| `C86_failed_counterexample` | After a failed decode the encoding is that of the rejected element, not that of the fields. |
| `C86_forwarder_decode_counterexample` | The claim of ItemsProps is false: a start time beyond the year 2262 is undefined behaviour. |
| `C86_forwarder_roundtrip_counterexample` | It is false: what is below a millisecond is lost. |
| `C87_reflected_counterexample` | It is false: elements that come after one of a later type are passed over, so a filter on one face that mentions the scheme first selects every face of the scheme. |
| `C88_error_counterexample` | It is false: an empty payload for `cs/info` is an `std::invalid_argument`, which is not a `tlv::Error`. |
| `C90_bits_counterexample` | It is false: setting bit 31 sets bits 32 to 63 too, and setting bit 32 is undefined behaviour. |
| `C91_callback_counterexample` | It is false also when the application destroys the Controller in the callback of a dataset: the library then erases the fetcher from the destroyed Controller. |
| `C91_defined_counterexample` | It is false: Data for a command arrives after the Controller was destroyed, and the handler uses it. |
| `C91_reported_counterexample` | It is false: for an empty `cs/info` dataset neither callback is called; an exception goes to the event loop. |
| `C92_digest_counterexample` | The identity called /localhost/identity/digest-sha256 is printed as signing with a digest only. |
| `C92_hmac_counterexample` | A `SigningInfo` with an HMAC key is printed as that of an identity. |
| `C93_algorithm_counterexample` | With a digest algorithm other than SHA-256 the packet says SignatureSha256WithEcdsa all the same, and the signature does not verify as such. |
| `C93_cert_counterexample` | A certificate that does not exist, of a key that does, is put into the KeyLocator. |
| `C93_locator_counterexample` | A KeyLocator given stays. |
| `C93_name_counterexample` | The name of no key gives `std::invalid_argument`, not `InvalidSigningInfoError`. |
| `C93_null_key_counterexample` | `SigningInfo(SIGNER_TYPE_HMAC, name)` has no key: a null pointer is imported and used. |
| `C94_hmac_orphan_counterexample` | `createKey` with parameters for HMAC throws, and the key stays in the TPM. |
| `C94_hmac_overwrites_counterexample` | `createHmacKey` replaces the private key of an identity when their names coincide. |
| `C94_memory_counterexample` | As with SQLite: setDefaultCertificate replaces the public key stored for a key. |
| `C94_sqlite_counterexample` | setDefaultCertificate replaces the public key stored for a key, which then does not verify its signatures. |
| `C95_sqlite_counterexample` | `deleteIdentity` that stops in the middle leaves keys of the identity in the PIB without a private key in the TPM. |
| `C97_dev_counterexample` | An interface alias such as `e:1` is a valid interface name, but its FaceUri reads back as host `e` and port `1`. |
| `C97_endpoint_counterexample` | The FaceUri of an IPv4-mapped endpoint reads back as an IPv4 host with scheme `udp6`; that of an IPv4-compatible address, such as `::1.2.3.4`, is rejected by the parser. |
| `C97_unix_counterexample` | A relative path, such as `s`, is taken for a host; a path with `?`, such as `/?`, is rejected. |
| `C99_only_counterexample` | White space and signs are accepted: ` 1:2:3:4:5:6` is read as `01:02:03:04:05:06`, and `1--2-3-4-5-6`, which has an empty octet, as `01-fe-03-04-05-06`. |
| `C100_fixed_counterexample` | `ether://[00:00:00:00:00:00]` is canonical, but its canonization fails; `dev://[ab]` is canonical, but its canonization yields the different FaceUri `dev://ab`. |
| `C100_result_counterexample` | A link-local address without a zone: canonization of `udp6://[fe80::1]:1` fails the assertion that its result is canonical. |
| `C100_unique_counterexample` | `udp4://1.2.3.4:1` and `udp4://1.2.3.4:01` are both canonical. So is `udp4://1.2.3.4:99999`, which canonization reports as success. |
| `C101_once_counterexample` | If the timeout expires while the finished resolution waits to be delivered, both callbacks are called. |
| `C102_current_counterexample` | `set` does not discard the cached encoding: once encoded or decoded, what is set later is never encoded. |
| `C102_failed_counterexample` | The refused element stays as the encoding of the object. |
| `C103_octets_counterexample` | Such a certificate cannot be verified any more when it is taken out of the bag. |
| `C105_counterexample` | A certificate for another public key, made default, can be exported but the bag cannot be imported. |
| `C106_level_counterexample` | Not for a prefix that does not end at a dot: after `a*` is set to ALL, a logger `ab` gets ALL if it exists, and NONE if it is created later. |
| `C107_refused_counterexample` | The pairs before the first one that is malformed take effect: `*=INFO:x`. |
| `C108_defined_counterexample` | A bundle without the certificate asked for: the result of the look-up, a null pointer, is dereferenced. |
| `C109_next_counterexample` | The segment after 255 is asked for as the successor of its name component, two zero octets, which is not the component of 256; a producer will not have it, and certificates from there on are not found in the bundle. |
| `C113_hmac_counterexample` | C113: only as many octets are compared as both have, so that an empty signature, or the first octet of the HMAC alone, is accepted for any octets. |
| `C117_authentic_counterexample` | The claim fails: an Interest for `/A/36=x/<digest>` with parameters `y` has the same signed octets as one for `/A/<digest>` with parameters `x`: who has seen one can make the other. |
| `C118_separate_counterexample` | The claim fails: the names of component types are those of packet elements, and what is signed has no label that says for which kind of packet it is. Whoever gets an Interest signed whose name they choose gets a Data packet signed, whose name and content they choose. |
| `C119_cached_counterexample` | The claim also fails for a signature information that was encoded, or received, as that of an Interest in the new format: the cached element is used, whatever its type. |
| `C119_resigned_counterexample` | The claim fails: an Interest that has a signature in the new format keeps it when it is signed in the old format. The receiver then looks at the former, which is not even in its place, and refuses. |
| `C120_messages_counterexample` | A message of 18 octets at the end of a datagram: the remaining length, 18 − 20, becomes 2^64 − 2 (getNext, netlink-message.hpp 118-126), so that the loop goes on with what an earlier, longer datagram left in the buffer, and is ready to go beyond the buffer. Here a link is taken from such left-over octets. |
| `C121_completes_counterexample` | An error as the answer to a request is logged and nothing else: the monitor neither asks again nor signals (parseErrorMessage, network-monitor-impl-netlink.cpp 423-451), and the end of the enumeration is awaited for ever. |
| `C121_notified_counterexample` | Sequence numbers start at the clock's time and wrap around to 0, the number under which the handler for notifications is kept: the answer to request 0 goes to that handler and removes it (netlink-socket.cpp 195-208, 332-339); after the next answer the socket is not read any more. |
| `C122_bridge_counterexample` | RTM_DELLINK of the family AF_BRIDGE (7), which the system sends when an Ethernet interface is taken out of a bridge: the interface is still there, but is removed from the list, for the family is not looked at (parseLinkMessage, network-monitor-impl-netlink.cpp 247-275). |
| `C123_system_counterexample` | Addresses are identified by their octets alone (operator<, network-address.hpp 125-129), but the system may have 10.0.0.1 both as 10.0.0.1/8 and as 10.0.0.1/16. When the latter is removed, the address is gone from the list, and from what listeners know. |
| `C124_again_counterexample` | A full disk has left a file without a key, which its owner may not write to. Once there is space again a key of that name is created: it is reported as created, but the file cannot be opened, nobody notices, and the key is not in the store. |
| `C124_stored_counterexample` | The disk is full: the file is empty, no exception is thrown, and the key that was just generated is lost when the program ends. (`StreamSink` looks at the stream after writing to its buffer, but not after flushing it, and nobody else looks at the stream.) |
| `C125_retry_counterexample` | Not after a call on a full disk that has come to its end. |
| `C126_private_counterexample` | With the usual umask a new file can be read by everybody; the key is written to it and only then are the permissions changed. Between the two, and for ever if the program is stopped there, others can read the private key. |
| `C127_used_counterexample` | A key is deleted through one key chain; another one, which has made or used it, goes on signing with it. |
| `C129_alias_counterexample` | Locators are compared as texts, so a TPM is not recognised under another name of its directory (such as the empty location, which is that of the default directory). |
| `C129_kept_counterexample` | The default PIB is opened with a TPM other than the default one, and resetting is not allowed: all its identities, keys and certificates are erased. (The constructor compares the locator in the PIB with the default one, not with the one given, and then sets the one given, which erases the PIB.) |
| `C129_supplied_counterexample` | The same program, run twice, gets a TPM in memory the first time, and the one in files the second time. |
| `C129_valid_counterexample` | It is refused also if the configured default PIB, which is not used, does not exist. |
| `C130_files_counterexample` | Two KeyChains with one PIB: the second one links it to another TPM, then the first one makes a key. |
| `C130_matched_counterexample` | The PIB is a database and the TPM in memory: the next program finds the PIB with its keys, and an empty TPM of the same locator. |
| `C131_stuck_counterexample` | Octets that cannot be an element (its type would be 0 or too large) are not reported: the decoder waits, without an error, for an end that never comes, and takes in all segments of the bundle without any of their certificates. |
| `C132_asked_counterexample` | A configuration file that cannot be opened is taken for an empty one (and hides those in the other places): the Face connects to the local forwarder without an error. |
| `C132_family_counterexample` | With a host name, `tcp4` and `tcp6` mean the same: the transport is given the name only, and connects to whatever it resolves to. |
| `C132_host_counterexample` | `unix://var/nfd.sock` (with two slashes) is accepted, and the Face connects to `/nfd.sock`. |
| `C133_once_counterexample` | A plain handle is copied, and both copies are used: the function that cancels the operation is called twice. |
| `C134_scoped_counterexample` | One ScopedConnection is assigned to another one: the connection that the latter had is forgotten, but not disconnected, so its handler goes on being called after both are destroyed. |
| `C135_no_default_counterexample` | `ndnsec cert-install -N` makes the identity the default if there is no default identity. |
| `C135_not_default_counterexample` | `ndnsec key-gen -n` makes the identity the default if there is no default identity. |
| `C135_set_default_counterexample` | After the default identity was deleted, `ndnsec set-default -c` also makes the identity of the certificate the default. |
| `C136_counterexample` | `ndnsec delete` of an identity, killed after the first private key is removed, leaves a key that cannot sign. |
| `C137_request_counterexample` | `ndnsec cert-gen` does not look at the signature of the request. |
| `C137_signed_counterexample` | Without a default identity `ndnsec cert-gen` makes a certificate that has a digest in place of a signature. |
| `C144_burst_counterexample` | Each signing moves the signer's time by a millisecond at least: after more than 120000 signings in one millisecond (or a burst that keeps ahead of the clock), the times are beyond the default grace period, and the Interests are refused although the clock was never adjusted. |
| `C144_clock_counterexample` | After the system clock was set back by more than the grace period, the Interests of a signer go on carrying times after those it used before, and are refused until the clock has caught up. |
| `C145_valid_counterexample` | After `toData` threw because signing failed, the announcement still has a packet: the check "must be signed" passes, and it is the encoding of the unsigned packet that throws, not an `ArgumentError`. |
| `C147_callbacks_counterexample` | A callback of a face that receives a packet unlinks this face (or destroys it, or links another face to it): the vector changes while the loop that delivers the packet goes over it, with iterators that are no longer valid. |
| `C147_self_counterexample` | A face can be linked to itself; when it is then unlinked or destroyed, `unlink` resets its own pointer to the link through the vector and uses it in the next statement: a null pointer is dereferenced. |
| `C148_self_counterexample` | A command with face ID zero, which stands for the face the command comes from, is answered with face ID zero, which the Controller refuses. |
| `C148_success_counterexample` | A `rib/register` command without flags is valid (flags are optional, with a default), but the made-up answer has no flags either, which the Controller refuses: it reports that the response is invalid. A forwarder fills in the default. |
| `C148_throws_counterexample` | An Interest for `rib/announce`, whose fifth component is a digest, makes the face throw a TLV error from the event loop. So does any other Interest under `/localhost/nfd/rib` of this length without parameters in its name. |
| `C150_flush_counterexample` | A flush in the middle of a line ends the line: a newline is put in and what follows is indented again. So the output depends on when the stream is flushed (for instance by a `std::flush`, or by a stream tied to it). |
| `C151_size_counterexample` | An Interest or Data within the limit of 8800 octets is refused as oversized if it carries a tag that needs a header: the limit is applied to the LpPacket. The program sees an exception from `expressInterest` or `put` although the packet itself is not too large. |
| `C152_observers_counterexample` | An observer that removes an interface from its handler of `onInterfaceAdded` misleads those connected after it: they get the removal before the addition and keep believing in an interface that is gone. |
| `C155_not_empty_counterexample` | The constructor asserts that the id is not empty, `setKeyId` does not test it. |
| `C155_set_id_counterexample` | `setKeyId` on parameters made without an id leaves the type of id as it is: the id is ignored, and the key is named by a random number or a digest. |
<!-- end of generated part -->

Noticed while reading, outside the models or not proved:

* SegmentFetcher, in-order mode, requests a segment again that was delivered; a FinalBlockId of 2^63-1 and more makes the
  number of segments zero or negative.
* Scheduler: callbacks that own handles and are destroyed by `cancelAllEvents` re-enter `multiset::clear`.
* Face: a second unregistration in flight reads an erased record in a log statement; the `onFailure` of a registration is
  called without a check; a Nack received consumes entries that came from the forwarder.
* Validator: a throwing failure callback is called again by the destructor of the state; a digest request made for a
  certificate verifies the digest of the original packet.
* DynamicTrustAnchorGroup throws `runtime_error` for a period that is not positive, where `invalid_argument` is documented.
* The hierarchical checker rejects everything when NDN_NAME_ALT_URI=0 is set.
* Replacing a key in the PIB keeps the certificates of the old key.
* ControlParameters: a failed `wireDecode` leaves presence bits set for members that were never assigned.
* Dispatcher: its storage is a FIFO of 256 packets, so a dataset of more segments loses the first ones.
* StatusDatasetContext::setPrefix looks for a segment number in the last component only.
* Transport: a connect timer that fired before the connect handler ran closes an established connection.
* Link: an empty list of delegations is accepted and encoded, although the grammar demands one; `setDelegationList` keeps
  duplicates.
* KeyChain: a failed `sign` leaves the SignatureInfo of the Data changed.
* FaceUri: a failed `parse` leaves scheme and path set; the expression for Ethernet addresses can never be reached.
