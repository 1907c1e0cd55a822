P('C71','Block equality and size reflect the content',
  'At any time, whether or not encode() has been called, two Blocks compare equal exactly when their types and the TLV-VALUEs they stand for are equal, and size() is the size of the encoding.',
  'all Block objects, encoded or not, built by any sequence of calls',
  'depends on the call history (before/after encode) and on arbitrary nested contents',
  [E+'block.cpp:Block::equals',E+'block.cpp:Block::push_back',E+'block.hpp:Block::size'])
P('C72','Decoding a Name yields valid components',
  'Name(block) either fails or yields a name whose components all pass component validation; it accepts exactly a Name element whose value is a sequence of well-formed TLV elements, and these become the components.',
  'all byte strings',
  'ranges over every nesting and every component type and length',
  ['ndn-cxx/name.cpp:Name::wireDecode','ndn-cxx/name-component.cpp:Component::ensureValid'])
P('C73','Interest encoding reflects its current fields',
  'Whatever calls were made before, the encoding returned by Interest::wireEncode() is well formed and decodes to the fields the object then has.',
  'every finite sequence of setter, encode and decode calls, including calls that throw',
  'depends on the call history and on the exception points inside encode/decode',
  [E.replace('encoding/','')+'interest.cpp:Interest::wireEncode','ndn-cxx/interest.cpp:Interest::wireDecode'])
P('C74','Interest setters are all-or-nothing',
  'A setter of Interest that throws leaves the object unchanged.',
  'all Interests, all setters and arguments',
  'ranges over all object states and the position of every exception',
  ['ndn-cxx/interest.cpp:Interest::setSignatureInfo','ndn-cxx/interest.cpp:Interest::setSignatureValueInternal','ndn-cxx/interest.cpp:Interest::setName'])
P('C75','Signing an Interest signs what verification extracts',
  'When KeyChain::sign signs an Interest, the octets given to the signer are exactly those extractSignedRanges() returns on the signed Interest.',
  'all Interests that can be signed, with any existing parameters',
  'the signature value changes the parameters and the name digest between the two extractions; ranges over all parameter lists',
  ['ndn-cxx/security/key-chain.cpp:KeyChain::sign','ndn-cxx/interest.cpp:Interest::setSignatureValueInternal','ndn-cxx/interest.cpp:Interest::extractSignedRanges'])
P('C76','The parameters digest covers all octets from ApplicationParameters on',
  'If an Interest with parameters is accepted with digest checking, the digest component of its name is the digest of every octet from the ApplicationParameters element to the end of the Interest.',
  'all byte strings accepted as Interest',
  'ranges over all element sequences, including repeated and ignored ones',
  ['ndn-cxx/interest.cpp:Interest::wireDecode','ndn-cxx/interest.cpp:Interest::computeParametersDigest'])
P('C77','Interest setters set exactly their field',
  'Each Interest setter gives its field the argument value and changes no other field; setSignatureInfo and setSignatureValue replace the existing element or insert it (info before the first value, value right after the first info) and keep all other parameters in order.',
  'all Interests and arguments',
  'ranges over all parameter lists, including decoded ones with extra elements',
  ['ndn-cxx/interest.cpp:Interest setters','ndn-cxx/interest.cpp:Interest::setSignatureInfo','ndn-cxx/interest.cpp:Interest::setSignatureValueInternal'])
P('C78','Iterating over an in-memory storage',
  'Iterating from begin() to end() visits every stored packet exactly once, in canonical order of full names, whatever was inserted, found, evicted or erased before.',
  'all histories of a storage',
  'ranges over all sets of packets and all histories',
  ['ndn-cxx/ims/in-memory-storage.cpp:InMemoryStorage::begin','ndn-cxx/ims/in-memory-storage.hpp:InMemoryStorage::const_iterator'])
P('C79','SegmentFetcher does not hang',
  'Until it has signalled completion or an error, a running SegmentFetcher always has a retransmission timer running; when one fires after the configured maximum time without progress it signals an error and stops.',
  'all finite sequences of arrivals, losses, Nacks, timeouts and window sizes, all configurations',
  'hanging is the absence of an event after an arbitrary interleaving of losses, retransmissions and window sizes',
  ['ndn-cxx/util/segment-fetcher.cpp:SegmentFetcher::fetchSegmentsInWindow','ndn-cxx/util/segment-fetcher.cpp:SegmentFetcher::afterNackOrTimeout'])
P('C80','Prefix registration',
  'Each prefix registration gets exactly one of its success and failure callbacks once its command is answered; the filter given with it is active from the successful answer until it is unregistered and never before; unregistering an unknown prefix fails; each unregistration gets exactly one callback.',
  'all histories of registrations, unregistrations, answers, failures, and Face shutdowns',
  'ranges over all interleavings of calls and answers',
  ['ndn-cxx/impl/face-impl.hpp:Face::Impl::registerPrefix','ndn-cxx/impl/face-impl.hpp:Face::Impl::unregisterPrefix'])
P('C81','PIB handles answer as documented',
  'A handle to an identity or key stands for one identity or key, is the same however it was obtained, and expires exactly when that is removed or replaced; every call on the PIB and on valid handles is answered from the current contents of the PIB, calls on expired handles fail and change nothing, and no call fails an assertion.',
  'all finite sequences of calls on a PIB, its identities and its keys, over both back ends',
  'the caches of containers, defaults and certificates depend on the whole history of calls',
  ['ndn-cxx/security/pib/pib.cpp:Pib','ndn-cxx/security/pib/identity.cpp:Identity','ndn-cxx/security/pib/key.cpp:Key','ndn-cxx/security/pib/identity-container.cpp','ndn-cxx/security/pib/key-container.cpp','ndn-cxx/security/pib/certificate-container.cpp'])
P('C82','A dispatcher processes commands and dataset requests as documented',
  'A command handler runs only after the authorization function was given that very request and accepted it, with parameters that were parsed from the Interest, are valid and have their defaults filled in; malformed commands are ignored, rejected ones get no answer or status 403, invalid ones status 400, and every response is Data with the name of the Interest. Dataset requests are answered from the storage or authorized and handed to their handler, whose segments are stored, the first one also being sent. No Interest causes memory errors.',
  'all finite sequences of registrations, Interests, authorization results, responses and notifications, in any interleaving',
  'the answers depend on the whole history and on adversarial Interests',
  ['ndn-cxx/mgmt/dispatcher.cpp:Dispatcher::processCommand','ndn-cxx/mgmt/dispatcher.cpp:Dispatcher::processAuthorizedCommand','ndn-cxx/mgmt/dispatcher.cpp:Dispatcher::processStatusDatasetInterest','ndn-cxx/mgmt/dispatcher.hpp:Dispatcher::addControlCommand'])
P('C83','Notifications are numbered consecutively',
  'The notifications posted in one stream get the sequence numbers 0, 1, 2 and so on, so that no two have the same name; nothing is posted unless there is exactly one top-level prefix.',
  'all finite sequences of registrations, removals and posts',
  'ranges over all histories of a dispatcher',
  ['ndn-cxx/mgmt/dispatcher.cpp:Dispatcher::postNotification','ndn-cxx/mgmt/dispatcher.cpp:Dispatcher::addNotificationStream'])
P('C84','Closing or pausing a transport takes effect',
  'After close() has returned, nothing is delivered, written or thrown any more and the transport stays closed; after pause() has returned, the receive callback is not invoked until resume(). No order of completions makes the transport misbehave.',
  'all finite sequences of calls, completions and handler runs, in any order the asynchronous operations allow',
  'depends on completions that race with the call',
  ['ndn-cxx/transport/detail/stream-transport-impl.hpp:StreamTransportImpl::close','ndn-cxx/transport/detail/stream-transport-impl.hpp:StreamTransportImpl::pause','ndn-cxx/transport/detail/stream-transport-with-resolver-impl.hpp','ndn-cxx/transport/unix-transport.cpp','ndn-cxx/transport/tcp-transport.cpp'])
P('C85','Control responses survive transmission',
  'A response built by any calls of its setters, encoded and decoded, has the same code, text and body; decoding accepts exactly the elements that hold a code, a text and at most one body; each setter changes its own field only; encoding after any history gives the current fields.',
  'all responses, all elements, all histories of setters, encodings and decodings',
  'ranges over all inputs and over the histories that fill or clear the cached encoding',
  ['ndn-cxx/mgmt/control-response.cpp:ControlResponse::wireEncode','ndn-cxx/mgmt/control-response.cpp:ControlResponse::wireDecode','ndn-cxx/mgmt/control-response.hpp:ControlResponse'])
P('C86','Status and notification items survive transmission',
  'Each of ChannelStatus, CsInfo, FaceEventNotification, FaceStatus, ForwarderStatus, NextHopRecord, FibEntry, Route, RibEntry and StrategyChoice built by any calls of its setters, encoded and decoded, shows the same values; decoding accepts exactly the elements of the published format; setters change their own field only; a rejected element does not change what is later encoded.',
  'all items, all elements, all histories of setters, encodings and decodings',
  'ranges over all inputs and over the histories that fill or clear the cached encoding',
  ['ndn-cxx/mgmt/nfd/channel-status.cpp','ndn-cxx/mgmt/nfd/cs-info.cpp','ndn-cxx/mgmt/nfd/face-event-notification.cpp','ndn-cxx/mgmt/nfd/face-status.cpp','ndn-cxx/mgmt/nfd/forwarder-status.cpp','ndn-cxx/mgmt/nfd/fib-entry.cpp','ndn-cxx/mgmt/nfd/rib-entry.cpp','ndn-cxx/mgmt/nfd/strategy-choice.cpp'])
P('C87','A face query filter asks for what was set',
  'A filter built by any calls of its setters, encoded and decoded, restricts the same fields to the same values; every restriction in an accepted element is in the decoded filter; a filter is empty exactly if nothing is restricted.',
  'all filters, all elements, all histories',
  'ranges over all inputs and orders of elements',
  ['ndn-cxx/mgmt/nfd/face-query-filter.cpp:FaceQueryFilter::wireEncode','ndn-cxx/mgmt/nfd/face-query-filter.cpp:FaceQueryFilter::wireDecode','ndn-cxx/mgmt/nfd/face-query-filter.cpp:FaceQueryFilter::empty'])
P('C88','Status datasets are parsed completely or rejected',
  'Parsing the payload of a dataset gives the items whose encodings, one after another, are the payload, and throws tlv::Error if there are none such; the concatenated encodings of items are parsed to these items; different datasets have different names, and a face query can be read back from the name it is asked with.',
  'all payloads, all lists of items, all datasets',
  'ranges over all payloads, including truncated and malformed ones',
  ['ndn-cxx/mgmt/nfd/status-dataset.cpp:parseDatasetVector','ndn-cxx/mgmt/nfd/status-dataset.hpp'])
P('C89','FIB and RIB entries are equal if they have the same records in any order',
  'Two FIB (RIB) entries compare equal exactly if they have the same name and the same next hops (routes), each the same number of times, in any order; the comparison is an equivalence.',
  'all pairs of entries',
  'ranges over all permutations of lists of any length',
  ['ndn-cxx/mgmt/nfd/fib-entry.cpp:operator==','ndn-cxx/mgmt/nfd/rib-entry.cpp:operator=='])
P('C90','Face flag bits',
  'setFlagBit changes the given bit of the flags and no other, getFlagBit reads it, and bits above 63 are refused.',
  'all flag words and bit numbers',
  'ranges over all 64 bits and all words',
  ['ndn-cxx/mgmt/nfd/face-traits.hpp:FaceTraits::setFlagBit','ndn-cxx/mgmt/nfd/face-traits.hpp:FaceTraits::getFlagBit'])
P('C91','An NFD controller reports what became of each command and dataset request',
  'For each command one Interest is sent and at most one of the callbacks is called, once: success exactly if the validated answer to this command is a response below the error codes whose parameters the command allows, with these parameters; otherwise failure with the code of the server, timeout, Nack, validation failure or malformed response. For each dataset request one callback is called with the parsed items or the code of the error. Nothing is undefined when the Controller is destroyed.',
  'all finite sequences of commands, dataset requests, answers, Nacks, timeouts, validation results and destruction, in any interleaving',
  'ranges over all interleavings and over adversarial answers',
  ['ndn-cxx/mgmt/nfd/controller.cpp:Controller::startCommand','ndn-cxx/mgmt/nfd/controller.cpp:Controller::processCommandResponse','ndn-cxx/mgmt/nfd/controller.cpp:Controller::processValidatedCommandResponse','ndn-cxx/mgmt/nfd/controller.cpp:Controller::fetchDataset','ndn-cxx/mgmt/nfd/controller.hpp:Controller::processDatasetResponse'])
P('C92','Signing strings',
  'A string is accepted as a SigningInfo exactly if it has one of the documented forms, and the result asks for just that signer; a SigningInfo printed and read back asks for the same signer.',
  'all strings, all SigningInfo values',
  'ranges over all strings and all names',
  ['ndn-cxx/security/signing-info.cpp:SigningInfo::SigningInfo','ndn-cxx/security/signing-info.cpp:operator<<'])
P('C93','KeyChain::sign signs with the key asked for',
  'After any history of calls on a KeyChain, signing a Data with a SigningInfo uses the key it denotes (that of the handle, of the name, of the certificate, the default key of the identity or of the default identity), puts the name of the certificate or key into the KeyLocator, and the signature covers the signed portion as a receiver finds it and verifies with the public key in the PIB; without such a key InvalidSigningInfoError is thrown. Nothing stored changes.',
  'all histories of calls over both PIB back ends, all packets and SigningInfo values, any cryptographic library whose signatures verify',
  'ranges over all histories and all combinations of handles, names and defaults',
  ['ndn-cxx/security/key-chain.cpp:KeyChain::sign','ndn-cxx/security/key-chain.cpp:KeyChain::prepareSignatureInfo'])
P('C94','The PIB and the TPM of a KeyChain belong together',
  'After any history of calls every key of the PIB has its private key in the TPM and signatures made with it verify with its public key, and every certificate is for the public key of its key; creating an identity that exists changes nothing; deleting removes what belongs to the key or identity and nothing else; importing a SafeBag succeeds as a whole or changes nothing; a failing call loses nothing.',
  'all histories of the 16 calls, over both PIB back ends',
  'ranges over all histories, including calls that fail in the middle',
  ['ndn-cxx/security/key-chain.cpp:KeyChain::createIdentity','ndn-cxx/security/key-chain.cpp:KeyChain::createKey','ndn-cxx/security/key-chain.cpp:KeyChain::deleteKey','ndn-cxx/security/key-chain.cpp:KeyChain::deleteIdentity','ndn-cxx/security/key-chain.cpp:KeyChain::importSafeBag','ndn-cxx/security/tpm/tpm.cpp'])
P('C95','A crash leaves a usable KeyChain',
  'If the process stops between two accesses to the PIB or the TPM during any call, a KeyChain opened afterwards on what was stored can use every key in its PIB, and behaves as specified from there on.',
  'all histories, all crash points between accesses to the two stores',
  'ranges over all crash points of all histories',
  ['ndn-cxx/security/key-chain.cpp:KeyChain::createKey','ndn-cxx/security/key-chain.cpp:KeyChain::deleteKey','ndn-cxx/security/key-chain.cpp:KeyChain::deleteIdentity','ndn-cxx/security/key-chain.cpp:KeyChain::importSafeBag'])
P('C96','Certificates made by a KeyChain',
  'makeCertificate gives a Data packet that is a certificate of the given key: named after it with the issuer and version asked for, with its public key as content, and a signature that verifies with the public key of the issuer; it refuses a freshness period that is not positive and requests without a public key. A key made by createKey has a certificate signed with itself.',
  'all histories, keys, requests and options',
  'ranges over all histories and options',
  ['ndn-cxx/security/key-chain.cpp:KeyChain::makeCertificate','ndn-cxx/security/key-chain.cpp:KeyChain::selfSign'])
P('C97','FaceUri texts',
  'A text is accepted as a FaceUri exactly if it has the documented form, its parts are determined by the text, and a FaceUri made from an endpoint, an Ethernet address, an interface name, a file descriptor or a path, printed and read back, is the same FaceUri; different FaceUris that were read have different texts.',
  'all texts, all FaceUris, any IP address library that reads back what it prints',
  'ranges over all texts and all addresses',
  ['ndn-cxx/net/face-uri.cpp:FaceUri::parse','ndn-cxx/net/face-uri.cpp:operator<<','ndn-cxx/net/face-uri.cpp:FaceUri::fromFd','ndn-cxx/net/face-uri.cpp:FaceUri::fromDev','ndn-cxx/net/face-uri.cpp:FaceUri::fromUdpDev'])
P('C98','Comparison of FaceUris',
  'Equality of FaceUris is equality of scheme, host, port and path together with bracketing; the order is a strict total order on them.',
  'all FaceUris',
  'ranges over all pairs and triples',
  ['ndn-cxx/net/face-uri.hpp:FaceUri::operator==','ndn-cxx/net/face-uri.hpp:FaceUri::operator<'])
P('C99','Texts of Ethernet addresses',
  'An Ethernet address printed and read back is the same address, different addresses have different texts, and exactly the texts of six hexadecimal octets separated by one and the same separator are accepted.',
  'all addresses, both separators, all texts',
  'ranges over all texts',
  ['ndn-cxx/net/ethernet.cpp:Address::toString','ndn-cxx/net/ethernet.cpp:Address::fromString'])
P('C100','Canonical FaceUris',
  'The result of canonization is canonical; a canonical FaceUri is its own canonical form; a canonical UDP or TCP FaceUri consists of the scheme of its address family, the text of the address, and a port; a FaceUri whose host is an address canonizes to the FaceUri of that address and its given or default port, and fails exactly for an address of the other family, a TCP multicast address or an invalid port; two FaceUris for the same endpoint have the same canonical form.',
  'all FaceUris, all results of name resolution, any IP address library that reads back what it prints',
  'ranges over all FaceUris and all addresses',
  ['ndn-cxx/net/face-uri.cpp:FaceUri::isCanonical','ndn-cxx/net/face-uri.cpp:FaceUri::canonize','ndn-cxx/net/face-uri.cpp:IpHostCanonizeProvider','ndn-cxx/net/face-uri.cpp:EtherCanonizeProvider','ndn-cxx/net/face-uri.cpp:DevCanonizeProvider'])
P('C101','Canonization reports once',
  'Canonization calls one of its two callbacks, exactly once, after the name was resolved or the timeout expired, in whatever order these happen; a resolved address is the first one of the family asked for.',
  'all FaceUris, all interleavings of the end of the resolution, its delivery and the timeout',
  'ranges over all schedules',
  ['ndn-cxx/net/dns.cpp:Resolver','ndn-cxx/net/dns.cpp:asyncResolve','ndn-cxx/net/face-uri.cpp:IpHostCanonizeProvider::canonize'])
P('C102','AdditionalDescription',
  'Decoding accepts exactly the elements made of entries, each a key and a value, and of elements that may be ignored; each key then has the value of its last entry and iteration goes through the keys in increasing order; set changes one key; after any history of calls the encoding is that of the current entries, and decoding it gives them back.',
  'all elements, all histories of set, wireEncode and wireDecode',
  'ranges over all histories of calls and all elements',
  ['ndn-cxx/security/additional-description.cpp:AdditionalDescription::wireDecode','ndn-cxx/security/additional-description.cpp:AdditionalDescription::wireEncode','ndn-cxx/security/additional-description.cpp:AdditionalDescription::set'])
P('C103','SafeBag',
  'A SafeBag encoded and decoded has the same certificate and encrypted key; exactly a Data packet followed by an EncryptedKey, and nothing else, is accepted; the certificate taken out of a bag is octet for octet the one put in, so that its signature still verifies.',
  'all certificates, keys and elements',
  'ranges over all packets and elements',
  ['ndn-cxx/security/safe-bag.cpp:SafeBag::wireEncode','ndn-cxx/security/safe-bag.cpp:SafeBag::wireDecode'])
P('C104','Certificates as Data packets',
  'A Data packet is accepted as a certificate exactly if its name is an identity followed by KEY, a key id, an issuer and a version, its content type is Key and its freshness period positive; the accessors return these parts, the name determines them, and an extension is the first element of its type.',
  'all Data packets and names',
  'ranges over all names and packets',
  ['ndn-cxx/security/certificate.cpp:Certificate::Certificate','ndn-cxx/security/certificate.cpp:Certificate::isValidName','ndn-cxx/security/certificate.cpp:extractIdentityFromCertName','ndn-cxx/security/certificate.cpp:extractKeyNameFromCertName'])
P('C105','Transfer of keys between KeyChains',
  'After any history each certificate of a KeyChain can be exported with its private key, which changes nothing; a second KeyChain, after any history of its own and as long as it has no private key of that name, imports it and has then the same certificate, public key and private key, and loses nothing.',
  'all pairs of histories of two KeyChains, all certificates stored',
  'ranges over all pairs of histories',
  ['ndn-cxx/security/key-chain.cpp:KeyChain::exportSafeBag','ndn-cxx/security/key-chain.cpp:KeyChain::importSafeBag','ndn-cxx/security/tpm/back-end.cpp:BackEnd::exportKey'])
P('C106','Levels of loggers',
  'At any time every logger has the level of the last rule that speaks of it, whether it was created before or after the rule was given, and NONE if there is none; a rule speaks of one logger, or, with an asterisk at the end, of all loggers whose name begins so; only well-formed names are accepted; FATAL is always enabled.',
  'all histories of creating loggers, registering names and setting levels, all patterns',
  'ranges over all histories and orders of static initialisation',
  ['ndn-cxx/util/logging.cpp:Logging::setLevelImpl','ndn-cxx/util/logging.cpp:Logging::findLevel','ndn-cxx/util/logging.cpp:Logging::addLoggerImpl','ndn-cxx/util/logger.cpp:Logger::Logger'])
P('C107','Texts that configure the levels',
  'A text is accepted exactly if it consists of pairs of a pattern and the name of a level separated by colons; it has then one meaning, namely giving these rules one after the other; a text that is refused changes nothing.',
  'all texts, all states',
  'ranges over all texts',
  ['ndn-cxx/util/logging.cpp:Logging::setLevelImpl','ndn-cxx/util/logger.cpp:parseLogLevel'])
P('C108','Requests for certificates',
  'During a validation each request for a certificate is answered at most once, by a certificate that has the name asked for and that came from the network, a bundle or another validation, or by a failure; Interests per request are bounded; whatever Nacks and timeouts come, a request is answered after at most eight of them; nothing undefined happens.',
  'all histories of requests, Data, Nacks, timeouts, retries, other validations and clock changes, for each of the fetchers with or without bundles',
  'ranges over all histories and all contents of packets',
  ['ndn-cxx/security/certificate-fetcher.cpp:CertificateFetcher::fetch','ndn-cxx/security/certificate-bundle-fetcher.cpp:CertificateBundleFetcher::dataCallback','ndn-cxx/security/certificate-fetcher-from-network.cpp:CertificateFetcherFromNetwork::dataCallback'])
P('C109','Bundles of certificates',
  'The bundle is looked for under the name of the packet validated without its implicit digest and segment number, so all segments of an object share it; the segments asked for are the first one, or the one after a segment that came; none is asked for beyond the FinalBlockId.',
  'all names, all histories',
  'ranges over all names and histories',
  ['ndn-cxx/security/certificate-bundle-fetcher.cpp:CertificateBundleFetcher::deriveBundleName','ndn-cxx/security/certificate-bundle-fetcher.cpp:CertificateBundleFetcher::fetchNextBundleSegment','ndn-cxx/security/certificate-bundle-fetcher.cpp:CertificateBundleFetcher::fetchFirstBundleSegment'])
P('C110','Where Interests for certificates go',
  'Offline no Interest is sent; the network fetcher sends them without next hop; the direct fetcher to the face the packet came from, and to the network as well unless it is told not to; they carry the name asked for; the waits after a Nack are 500, 1000 and 2000 ms.',
  'all histories',
  'ranges over all histories',
  ['ndn-cxx/security/certificate-fetcher-direct-fetch.cpp:CertificateFetcherDirectFetch::doFetch','ndn-cxx/security/certificate-fetcher-from-network.cpp:CertificateFetcherFromNetwork::nackCallback','ndn-cxx/security/certificate-fetcher-offline.cpp:CertificateFetcherOffline::doFetch'])
P('C111','Pipelines of transformations',
  'A pipeline of any modules (hexadecimal, white space, base64, cipher, digest, signature) applied to an input gives the functions of the modules one after the other, whether the input comes in one buffer, in many or from a stream read in pieces of any size; it throws exactly if a module refuses its input or the stream breaks; no assertion fails and every loop ends.',
  'all lists of modules, all inputs, all divisions into buffers, all buffer sizes',
  'ranges over all pipelines and all divisions of the input',
  ['ndn-cxx/security/transform/transform-base.cpp:Transform::doWrite','ndn-cxx/security/transform/buffer-source.cpp:BufferSource::doPump','ndn-cxx/security/transform/stream-source.cpp:StreamSource::doPump','ndn-cxx/security/transform/base64-decode.cpp:Base64Decode::finalize','ndn-cxx/security/transform/block-cipher.cpp:BlockCipher::convert'])
P('C112','Step sources',
  'Before the first end() a write takes all octets; afterwards it throws and changes nothing; end() can be repeated; the sink is ended once and then holds what the modules make of all that was written before the first end().',
  'all pipelines, all histories of write and end',
  'ranges over all histories',
  ['ndn-cxx/security/transform/step-source.cpp:StepSource::write','ndn-cxx/security/transform/transform-base.cpp:Downstream::write','ndn-cxx/security/transform/transform-base.cpp:Downstream::end'])
P('C113','Verification of signatures over octets',
  'A signature is accepted by a public key exactly if it is a signature of the octets of all blobs together; by an HMAC key exactly if it is the HMAC; a digest exactly if it is the digest and there is at least one blob.',
  'all keys, all blobs, all signatures of any length',
  'ranges over all signatures, of all lengths',
  ['ndn-cxx/security/transform/verifier-filter.cpp:VerifierFilter::finalize','ndn-cxx/security/verification-helpers.cpp:verifySignature','ndn-cxx/security/verification-helpers.cpp:verifyDigest','ndn-cxx/security/tpm/impl/key-handle-mem.cpp:KeyHandleMem::doVerify'])
P('C114','Digest objects',
  'A digest object gives the digest of all octets put in since it was made or reset, in whatever pieces; asking again gives the same; putting octets in afterwards throws and changes nothing; objects do not influence each other, and comparison compares the digests.',
  'all histories of calls on any number of objects',
  'ranges over all histories',
  ['ndn-cxx/util/sha256.cpp:Sha256::update','ndn-cxx/util/sha256.cpp:Sha256::computeDigest','ndn-cxx/util/sha256.cpp:Sha256::operator=='])
P('C115','Octets saved and loaded',
  'Octets saved without encoding, as base64 or as hexadecimal are loaded as they were; a text is loaded as hexadecimal exactly if it is a hexadecimal notation of what is loaded; line breaks do not matter in base64; a stream that breaks is reported.',
  'all octets and texts of any length',
  'ranges over all octets and texts',
  ['ndn-cxx/util/io.cpp:saveBuffer','ndn-cxx/util/io.cpp:loadBuffer'])
P('C116','Verification of Data packets',
  'A received Data packet is accepted exactly if the key accepts its signature value for the octets from its name up to the signature value; without a certificate exactly if its type is DigestSha256 and its signature is the digest of these octets. A packet that was signed is accepted by the receiver. If a key accepts only what its owner signed, a packet that is accepted has the name, meta information, content and signature information of one the owner signed.',
  'all octets received, all keys, all sets of packets signed',
  'ranges over all packets an attacker can make',
  ['ndn-cxx/security/verification-helpers.cpp:parse(const Data&)','ndn-cxx/security/verification-helpers.cpp:verifySignature','ndn-cxx/data.cpp:Data::extractSignedRanges'])
P('C117','Verification of Interests',
  'A received Interest is accepted exactly if it has the parts of a signed Interest, in the present format or, if it lacks a signature element, in the old one, and the key accepts the signature for the signed octets. Unsigned Interests are accepted by no key. If a key accepts only what its owner signed, an Interest that is accepted has the name and parameters of one the owner signed.',
  'all octets received, all keys, all sets of Interests signed',
  'ranges over all Interests an attacker can make',
  ['ndn-cxx/security/verification-helpers.cpp:parse(const Interest&)','ndn-cxx/security/verification-helpers.cpp:verifySignature','ndn-cxx/interest.cpp:Interest::extractSignedRanges'])
P('C118','A signature for one kind of packet is not one for another',
  'What is signed for an Interest is never what is signed for a Data packet, so that a key whose owner signs only Interests makes no Data packet acceptable.',
  'all Data packets and all Interests, in both formats',
  'ranges over all pairs of packets',
  ['ndn-cxx/security/verification-helpers.cpp:parse(const Interest&)','ndn-cxx/security/verification-helpers.cpp:parse(const Data&)'])
P('C119','Interests signed in the old format',
  'Signing an Interest in the old format changes only its name, to which the signature information and the signature are appended; the receiver accepts the result exactly if the key accepts the signature made for the octets of the name and the signature information.',
  'all Interests, signature informations and keys',
  'ranges over all Interests and signatures',
  ['ndn-cxx/security/key-chain.cpp:KeyChain::sign(Interest&, const SigningInfo&)','ndn-cxx/security/verification-helpers.cpp:parse(const Interest&)'])
P('C120','Netlink datagrams and attributes',
  'Of what the system sends, exactly the messages in the datagram received are handled, and of a message exactly the attributes it has; octets outside the datagram are never looked at. Of several attributes of a type the last one counts, and texts end at the first null octet.',
  'all datagrams, all contents of the buffer, all messages',
  'ranges over all octets that may be received',
  ['ndn-cxx/net/impl/netlink-message.hpp:NetlinkMessage::getNext','ndn-cxx/net/impl/netlink-message.hpp:NetlinkMessageAttributes'])
P('C121','Enumeration and notifications',
  'The network monitor asks for links, then for addresses, then signals the end of the enumeration, each once; onNetworkStateChanged comes only after that. Once every request is answered the enumeration is complete. Notifications are always heard, and what other processes send or what is meant for others has no effect.',
  'all sequences of datagrams',
  'ranges over all histories',
  ['ndn-cxx/net/impl/netlink-socket.cpp:NetlinkSocket::receiveAndValidate','ndn-cxx/net/impl/network-monitor-impl-netlink.cpp:NetworkMonitorImplNetlink::parseRtnlMessage'])
P('C122','Interfaces listed and signalled',
  'Whoever listens to the signals of the network monitor knows which interfaces there are, their states, MTUs and addresses, and every signal tells of a change. The interfaces are listed in the order of their indices, each once. A message about a link sets what it says, of its interface only; a deletion removes it.',
  'all sequences of datagrams',
  'ranges over all histories',
  ['ndn-cxx/net/impl/network-monitor-impl-netlink.cpp:NetworkMonitorImplNetlink::parseLinkMessage','ndn-cxx/net/network-interface.cpp:NetworkInterface::setState'])
P('C123','Addresses of interfaces',
  'The addresses listed of an interface are those the system has on it, except tentative ones, none twice; messages about addresses change the interface they are about only.',
  'all sequences of messages about addresses',
  'ranges over all histories',
  ['ndn-cxx/net/impl/network-monitor-impl-netlink.cpp:NetworkMonitorImplNetlink::parseAddressMessage','ndn-cxx/net/network-interface.cpp:NetworkInterface::addNetworkAddress'])
P('C124','A private key reported as stored is in the key store',
'With private keys kept in files: after createKey or importKey has reported success, anybody who opens the same directory finds exactly that key under that name; no call on one name changes what is stored under another; hasKey, getKeyHandle and exportKey always agree; what is exported can be imported again as the same key; and any sequence of calls on a store that was empty behaves like a map from names to keys.',
'every sequence of calls with every way of choosing names, every key, every amount of free space on the disk, with and without superuser rights, directories that can and cannot be written to',
'A test runs on a disk with space, in a fresh directory; what matters is the file left over by an earlier failure, and the failures that nobody reports.',
['ndn-cxx/security/tpm/impl/back-end-file.cpp: saveKey, loadKey, doHasKey, doCreateKey, doImportKey, doExportKey, doDeleteKey','ndn-cxx/security/tpm/back-end.cpp: createKey, importKey, exportKey, constructAsymmetricKeyName','ndn-cxx/security/transform/stream-sink.cpp'])
P('C125','A crash while a key is stored leaves the old store or the new one',
'If the program is stopped anywhere in the middle of creating, importing or deleting a key, each name has the key it had before or the one that was being stored (or none, if it was being deleted), never another one; and a key that is not there after a crash can be stored again.',
'every call, every point at which it can be stopped (after each octet written), every earlier contents of the directory',
'Crash points cannot be enumerated by unit tests, and the state left by a crash decides what later calls do.',
['ndn-cxx/security/tpm/impl/back-end-file.cpp: saveKey, doDeleteKey','ndn-cxx/security/tpm/back-end.cpp: importKey, createKey'])
P('C126','Others cannot read private keys',
'At no time, not even in the middle of a call or after a crash, can users other than the owner read a private key kept in a file.',
'every sequence of calls and crashes, every umask, every intermediate state of the directory',
'A test looks at the permissions after the call; the claim is about every moment and about crashes.',
['ndn-cxx/security/tpm/impl/back-end-file.cpp: saveKey'])
P('C127','The key a TPM uses is the one that is stored',
'What a Tpm signs, verifies or decrypts with under a name is the key that the store holds under that name, and it finds no key exactly if the store holds none, although each Tpm keeps the handles it has loaded or made.',
'every sequence of creations, imports, deletions and uses, through any number of Tpm objects on one directory',
'Stale handles need particular histories through several objects.',
['ndn-cxx/security/tpm/tpm.cpp: createKey, deleteKey, importPrivateKey, findKey','ndn-cxx/security/tpm/impl/back-end-file.cpp'])
P('C128','Locators of PIBs and TPMs',
'A PIB or TPM locator is accepted exactly if its part before the first colon (all of it, if there is none) is empty or names a back end that exists; an empty one means the default back end, and the part after the first colon is the location, unchanged. What the KeyChain stores of a locator means the same when it is read again, and two accepted locators are stored as the same text only if they mean the same.',
'every text',
'All texts, with any number of colons, with and without either part.',
['ndn-cxx/security/key-chain.cpp: parseLocatorUri, parseAndCheckPibLocator, parseAndCheckTpmLocator, Locator::canonical'])
P('C129','A KeyChain uses the TPM its PIB belongs to, and erases no PIB without permission',
'After a KeyChain was made, the locator stored in its PIB is the one of the TPM it uses; making it changes no other PIB and no TPM. If the PIB belongs to another TPM and resetting is not allowed, making the KeyChain fails and changes nothing. The TPM is the one asked for, a KeyChain with valid locators can be made, and different texts for one directory do not count as different TPMs. The default locators are read once and stay the same.',
'every state of the file system, every environment and configuration file, every pair of locators, with and without permission, and every state in the middle',
'What happens depends on what earlier programs, with other settings, left in the PIB, and on where they were stopped.',
['ndn-cxx/security/key-chain.cpp: KeyChain::KeyChain, getDefaultPibLocator, getDefaultTpmLocator','ndn-cxx/security/pib/pib.cpp: setTpmLocator, reset'])
P('C130','Every key in the PIB has its private key in the TPM',
'Whatever KeyChains are made, with whatever locators and settings, and whatever keys are created and deleted through them, through any number of programs one after another and stopped anywhere while making a KeyChain: each key listed by a KeyChain has its private key in its TPM.',
'every sequence of KeyChains made and destroyed, keys created and deleted, and crashes while a KeyChain is made',
'Needs histories over several programs and several databases that share directories.',
['ndn-cxx/security/key-chain.cpp: KeyChain::KeyChain, createKey, deleteKey','ndn-cxx/security/pib/pib.cpp: setTpmLocator, reset'])
P('C131','Bundles of certificates decoded as they arrive',
'However the octets of a certificate bundle are cut into segments: each certificate in it is given to the handlers once, in order, as soon as its last octet was appended; elements that may be ignored are; anything else ends the decoding with an exception, nothing is emitted afterwards, and every later segment is refused. As long as there is no error, the octets kept are the beginning of an element.',
'every sequence of octets, every way of cutting it into segments, every handler',
'All ways to cut all sequences of octets, with headers split in the middle.',
['ndn-cxx/security/detail/certificate-bundle-decoder.cpp: append, decode'])
P('C132','A Face connects to the forwarder that is asked for',
'For every value of the environment variable NDN_CLIENT_TRANSPORT and every configuration file in each of the places where one is looked for: a Face made without a transport connects to what the environment variable says, otherwise to what the first file that exists says, otherwise to the local forwarder; a URI leads to the socket, or the host and port, in it, with the documented defaults, and anything else is an error.',
'every environment, every set of configuration files and their states, every URI',
'The combinations of variables, files and URIs are unbounded.',
['ndn-cxx/face.cpp: makeDefaultTransport','ndn-cxx/transport/unix-transport.cpp: getSocketNameFromUri','ndn-cxx/transport/tcp-transport.cpp: getSocketHostAndPortFromUri','ndn-cxx/util/config-file.cpp: findConfigFile, open'])
P('C133','An operation is cancelled once, when its handle goes',
'Through every sequence of making, moving, assigning (also to itself), releasing, cancelling and destroying scoped handles: each operation is in one place, in one scoped handle that exists, in a plain handle, or among those cancelled; it is cancelled once, when the scoped handle that has it is destroyed, assigned to or cancelled; moving and releasing cancel nothing.',
'every history of any number of scoped handles',
'Histories of moves, assignments and destructions are unbounded.',
['ndn-cxx/detail/cancel-handle.hpp: ScopedCancelHandle','ndn-cxx/detail/cancel-handle.cpp: CancelHandle::cancel'])
P('C134','A handler is connected only as long as its ScopedConnection exists',
'Through every sequence of connecting, putting connections in ScopedConnections, moving, assigning, releasing, disconnecting and destroying: a connection that was put in a ScopedConnection and not released is connected only while some ScopedConnection holds it, and is cut only by who disconnects it or by an object that holds it.',
'every history of any number of connections and ScopedConnections',
'Histories of moves, assignments and destructions are unbounded.',
['ndn-cxx/util/signal/scoped-connection.hpp: ScopedConnection','ndn-cxx/util/signal/scoped-connection.cpp: operator=, release','ndn-cxx/util/signal/connection.hpp: operator=='])

P('C135','The commands of ndnsec change what their help texts say, and nothing else',
'Each ndnsec command (key-gen, delete, set-default, get-default, cert-install, import, sign-req, cert-gen, cert-dump) that is not killed ends with exit code 0, 1 or 2, and its effect on the stored identities, keys, certificates, defaults and private keys is exactly the documented one; commands that show or sign something change nothing; after an identity is deleted none of its keys is left in the PIB or the TPM.',
'every sequence of commands with all their options on the SQLite PIB, each run by a new process, starting with an empty store',
'The effect of a command depends on everything that earlier commands left in two separate files.',
['tools/ndnsec/key-gen.cpp','tools/ndnsec/delete.cpp','tools/ndnsec/set-default.cpp','tools/ndnsec/get-default.cpp','tools/ndnsec/cert-install.cpp','tools/ndnsec/import.cpp','tools/ndnsec/sign-req.cpp','tools/ndnsec/cert-gen.cpp','tools/ndnsec/cert-dump.cpp','tools/ndnsec/util.cpp: getCertificateFromPib','tools/ndnsec/main.cpp'])

P('C136','Killing ndnsec leaves usable keys',
'Wherever ndnsec commands are killed, each key that is then in the PIB can sign, its signatures verify with its public key, each certificate is for the public key of its key, and each default exists.',
'every sequence of commands, each killed at any access to the PIB or the TPM or not at all',
'Every point at which a process may be killed, after every history, has to be considered.',
['tools/ndnsec/main.cpp','ndn-cxx/security/key-chain.cpp: createKey, deleteIdentity, deleteKey, importSafeBag','ndn-cxx/security/pib/impl/pib-sqlite3.cpp'])

P('C137','Requesting, issuing and installing a certificate works',
'If a user runs sign-req for an identity, an issuer runs cert-gen on the request, and the user runs cert-install on the outcome, then the request is signed with the key of the user, the certificate is for that public key and signed with the default key of the issuer, and it becomes the default certificate of the identity of the user.',
'all stores of the user and the issuer reached by any sequences of commands, all identities, validity periods, issuer IDs and versions',
'The outcome depends on the histories of two stores.',
['tools/ndnsec/sign-req.cpp','tools/ndnsec/cert-gen.cpp','tools/ndnsec/cert-install.cpp'])

P('C138','An object cut into segments and fetched over the wire arrives intact',
'If an application cuts a byte string into segments with Segmenter and puts them on the wire, and a consumer fetches it with SegmentFetcher through a validator that accepts only the packets published, then whatever is lost, duplicated, reordered, forged or corrupted on the way, onComplete only ever reports exactly the byte string, and in in-order mode what is delivered is a prefix of it, and all of it when onInOrderComplete is signalled; and if nothing is lost, the fetch completes once each Interest is answered.',
'all byte strings, names, segment sizes, signing functions, fetcher options, and all sequences of packets (arbitrary octets), validation results, Nacks, timeouts and losses',
'The composition of segmentation, encoding, decoding and reassembly has to hold for all objects under all schedules and all foreign packets.',
['ndn-cxx/util/segmenter.cpp: Segmenter::segment','ndn-cxx/data.cpp: Data::wireEncode, Data::wireDecode','ndn-cxx/util/segment-fetcher.cpp: SegmentFetcher::start, afterSegmentReceivedCb, afterValidationSuccess, finalizeFetch'])

P('C139','A management dataset arrives as the handler made it',
'Whatever a dataset handler appends to its StatusDatasetContext before end(), in any number and sizes of pieces, a consumer whose SegmentFetcher completes, with a validator that accepts only packets of the dispatcher, gets exactly these bytes and reads the items they spell; of several versions published it gets one, never a mixture; and if the handler rejects the request the consumer is told of an error of the server.',
'all sequences of calls of a handler, all dataset sizes, names and versions, all sequences of packets (arbitrary octets), validation results, Nacks, timeouts and losses',
'Segmentation, naming, encoding, decoding and reassembly have to agree for all datasets under all schedules.',
['ndn-cxx/mgmt/status-dataset-context.cpp','ndn-cxx/mgmt/dispatcher.cpp: sendStatusDatasetSegment, sendData, sendControlResponse','ndn-cxx/util/segment-fetcher.cpp','ndn-cxx/mgmt/nfd/controller.cpp: fetchDataset','ndn-cxx/mgmt/nfd/status-dataset.cpp'])

P('C140','A command reaches its handler and its outcome the caller',
'If a command is registered with a Dispatcher under the prefix the Controller uses, then each command the Controller starts is handed to the authorization function with exactly the parameters given, and, once accepted, to the handler with the defaults filled in, never refused as invalid; what the handler answers is sent under the name of the Interest; and received over the wire and validated it makes the Controller report success with the parameters in the body, or failure with this very response.',
'all NFD commands, parameters, prefixes, names of signed Interests, histories of the Dispatcher and of the Controller, and responses',
'Both sides and the formats between them have to agree for all parameters and after all histories.',
['ndn-cxx/mgmt/nfd/controller.cpp: startCommand, processCommandResponse','ndn-cxx/mgmt/nfd/control-command.hpp: createRequest, parseRequest','ndn-cxx/mgmt/dispatcher.cpp: processCommand, processAuthorizedCommand, sendControlResponse','ndn-cxx/mgmt/control-response.cpp'])

P('C141','A subscriber hears consecutive notifications',
'If a NotificationSubscriber with a handler follows a stream that an application posts through a Dispatcher, and each of its Interests is answered by some matching packet of the stream, then the handler is given consecutive notifications of the stream, decoded from exactly the octets posted, in the order of posting, none twice and none left out; if its first Interest asked for a particular number, the first notification is the one of that number.',
'all histories of the Dispatcher, all histories of the subscriber before, all numbers and contents of notifications, all packets received as octets',
'Numbering at the producer, naming, encoding, decoding and counting at the consumer have to agree for all histories.',
['ndn-cxx/mgmt/dispatcher.cpp: postNotification, sendData','ndn-cxx/util/notification-subscriber.cpp','ndn-cxx/util/notification-subscriber.hpp: decodeAndDeliver','ndn-cxx/util/notification-stream.hpp'])

P('C142','An Interest signed in the new format is accepted by its receiver',
'Signing an Interest that is not signed yet, with or without application parameters, in the new format succeeds, changes nothing but the parameters, the digest in the name and a missing nonce, and the receiver of its encoding accepts it exactly if the key accepts the signature value for the octets that were signed: the name without the digest and the parameters up to the SignatureInfo.',
'all Interests, with any parameters, names, hints and other fields, all SignatureInfos, signing functions, digests and keys',
'Signer and verifier find the signed octets in different representations, for Interests of any shape.',
['ndn-cxx/security/key-chain.cpp: KeyChain::sign','ndn-cxx/interest.cpp: setSignatureInfo, setSignatureValue, extractSignedRanges, addOrReplaceParametersDigestComponent','ndn-cxx/security/verification-helpers.cpp'])

P('C143','What a key chain signs its receivers accept',
'After any sequence of calls on a KeyChain, a Data packet or an Interest signed with it, in the old or the new format, is accepted by a receiver that verifies it with the public key of the key asked for, or with any certificate of that key in the PIB; one signed with a digest by a receiver without certificate; one signed with an HMAC key by a receiver with that key. Signing an Interest changes nothing in it but the signature, the digest and a missing nonce, and nothing in the PIB. If there is no such key, it fails.',
'all histories of calls on a key chain, both PIB implementations, all signing options, all packets that can be encoded, all key pairs that work',
'The key, the locator, the octets signed and the octets verified depend on the whole history and on the packet.',
['ndn-cxx/security/key-chain.cpp: KeyChain::sign, prepareSignatureInfo','ndn-cxx/security/verification-helpers.cpp','ndn-cxx/security/signing-info.cpp','ndn-cxx/interest.cpp','ndn-cxx/data.cpp'])

P('C144','A signer and the policies against replays agree',
'If the Interests that reach a validator under a key are some of those that one InterestSigner made, in that order, and the time in each is within the grace period when it arrives, then ValidationPolicySignedInterest, with any options whose elements were asked for, and ValidationPolicyCommandInterest let every one of them pass, whatever arrives under other keys, whatever fails and however validations overlap. A signer used at most once per millisecond, on a clock that is not set back, puts the reading of the clock into every Interest.',
'all sequences of signings with any readings of the clock, all histories of the validator, with losses, delays and any other Interests, all options of the policies',
'The state of the signer and that of the policy have to stay in step over all histories of both.',
['ndn-cxx/security/interest-signer.cpp','ndn-cxx/security/validation-policy-signed-interest.cpp','ndn-cxx/security/validation-policy-command-interest.cpp'])

P('C145','A prefix announcement reaches the handler of rib/announce',
'A rib/announce request made from any announcement that has its packet, signed in the new format with any key, encoded and received, is an Interest under the name of the command from which the handler gets an announcement equal to the one sent, with the very same packet, which passes the check of the command. An announcement without packet is refused as an argument error. The handler accepts exactly those Interests in whose first parameter element the first Data packet is an announcement. Responses are checked as those to rib/register.',
'all announcements a program can hold, all prefixes, signing keys and signature information, all Interests received',
'Announcement, Data, Interest and signing formats are nested and have to agree for all contents.',
['ndn-cxx/mgmt/nfd/control-command.hpp: ApplicationParametersCommandFormat, RibAnnounceParameters, RibAnnounceCommand','ndn-cxx/mgmt/nfd/control-command.cpp: RibAnnounceParameters, RibAnnounceCommand','ndn-cxx/prefix-announcement.cpp','ndn-cxx/interest.cpp'])

P('C146','A certificate made with a key chain is one for its receivers',
'After any sequence of calls on a KeyChain, the packet that makeCertificate returns, for a key of the PIB or for a request, is received as a certificate with the identity, key name, issuer and version asked for, exactly the public key given, and the validity period asked for; it is valid at exactly the instants of that period; it verifies with the public key of the issuer; and a receiver who knows that public key trusts with it exactly the packets that verify with the public key certified, and only in the period. The same holds for the self-signed certificate of a new key.',
'all histories of calls on a key chain, both PIB implementations, all signing options, certificate options, validity periods of representable instants, all instants, all packets checked with the certificate',
'Key chain, packet, certificate and date formats have to agree for all histories, names, keys and dates.',
['ndn-cxx/security/key-chain.cpp: makeCertificate, selfSign','ndn-cxx/security/certificate.cpp','ndn-cxx/security/validity-period.cpp','ndn-cxx/signature-info.cpp: getValidityPeriod, addCustomTlv','ndn-cxx/security/verification-helpers.cpp'])

P('C147','Linked dummy faces hear each other',
'After any sequence of linkTo and unlink calls on DummyClientFace objects, in which no face is linked to itself, a packet sent by a face is received exactly once by every other face on its broadcast link and by no other face; linkTo throws exactly if the two faces are on different links and then changes nothing; hearing is mutual and transitive; unlinking a face takes just this face from its link. Callbacks may link and unlink faces outside of the link while a packet is delivered on it.',
'all sequences of linkTo and unlink over any number of faces, all senders, all reactions of callbacks to faces outside of the link',
'The shared link objects are changed by all faces on them, in any order, and while they are iterated.',
['ndn-cxx/util/dummy-client-face.cpp: linkTo, unlink, enableBroadcastLink, ~DummyClientFace'])

P('C148','Prefix registrations on a dummy face with registration replies succeed',
'A DummyClientFace with registration replies answers every valid rib/register and rib/unregister command for the local forwarder, whatever signing appends to its name, with code 200 and the parameters of the command in which the face ID of the options, the origin "app" and, for rib/register, the cost zero stand for those not given. The Controller reports this as success with these parameters, exactly if the face ID is not zero and a rib/register command has flags; Face::registerPrefix and the unregistration always succeed. Every Interest elsewhere is ignored.',
'all parameters of the two commands, all suffixes of the name, all face IDs, all Interest names',
'The parameters pass through two codecs and two validations that have to agree for every combination of fields.',
['ndn-cxx/util/dummy-client-face.cpp: enableRegistrationReply','ndn-cxx/mgmt/nfd/control-command.cpp','ndn-cxx/mgmt/nfd/controller.cpp: processValidatedCommandResponse','ndn-cxx/impl/face-impl.hpp: registerPrefix'])

P('C149','Texts of management enumerations can be told apart and read back',
'Different values of FaceScope, FacePersistency, LinkType, FaceEventKind, RouteOrigin and RouteFlags, including values without a name, are printed differently. Extracting a RouteOrigin from a stream skips white space, takes one word, and gives the origin exactly if the word is one of the names in any case or a decimal number in the range, perhaps with a sign; otherwise the stream fails and the origin is "none". Every printed origin is read back. From the text of route flags every bit can be told.',
'all values of the enumerations, all octet strings in the stream',
'The ranges have up to 2^64 values and the inputs are arbitrary texts.',
['ndn-cxx/encoding/nfd-constants.cpp','ndn-cxx/encoding/nfd-constants.hpp','ndn-cxx/util/ostream-joiner.hpp','ndn-cxx/util/string-helper.cpp: printHex'])

P('C150','Indented streams indent every line',
'What is written to an IndentedStream, in any pieces, arrives at the underlying stream with the indent before every line, when it is flushed or destroyed, and nothing else is changed, if it is flushed at line ends; a last line without newline gets one. Indented streams can be nested.',
'all sequences of writes and flushes, all texts and indents',
'The buffer is split anew at every flush, so the result depends on the history.',
['ndn-cxx/util/indented-stream.cpp'])

P('C151','Packets and their tags between faces',
'What a Face hands to its transport is the bare Interest or Data, or an LpPacket holding exactly the fields its tags call for, in order, and the packet; it refuses exactly what exceeds 8800 octets and Data with an empty cache policy. A Face takes an Interest, Data or Nack from a block exactly when the block is such a packet or an LpPacket of ordered known or ignorable fields with it in the fragment, with the incoming face, congestion mark and Nack reason given by the fields. So what one Face sends another receives: the same octets, reason and congestion mark. On dummy faces tests see the packets and tags that are sent, packets given to receive arrive with their tags, and packets arrive unchanged over a link.',
'all Interests, Data and Nacks, all tags, all received blocks',
'Every combination of tags and sizes of fields gives another encoding, and received blocks are arbitrary octets.',
['ndn-cxx/impl/face-impl.hpp: expressInterest, putData, putNack, finishEncoding','ndn-cxx/face.cpp: onReceiveElement','ndn-cxx/impl/lp-field-tag.hpp','ndn-cxx/util/dummy-client-face.cpp: construct, receive'])

P('C152','A stubbed network monitor and its observers',
'Adding an interface to a NetworkMonitorStub throws exactly if there is one of that name, and then changes and signals nothing; otherwise it can be found by its name and all observers are told. Removing makes it unknown and tells all observers, or does nothing. The list holds each interface that can be found by name, once. An observer that follows onInterfaceAdded and onInterfaceRemoved always knows the same interfaces as the monitor, if none but the observer connected last calls the monitor from its handlers.',
'all histories of calls, all numbers of observers, all reactions of handlers',
'Handlers may call the monitor while a signal is emitted, so the order of events depends on the schedule.',
['ndn-cxx/net/network-monitor-stub.cpp','ndn-cxx/util/signal/signal.hpp: operator()'])

P('C153','Packet tags are a table by type',
'A packet has at most one tag of each type: after any history of setting, replacing, removing and copying packets, getTag gives the tag set last on that packet, or on the packet it was copied from before the copy; setting a null pointer removes; types and copies do not affect each other.',
'all sequences of calls on any number of packets',
'The table depends on the whole history of calls.',
['ndn-cxx/detail/tag-host.hpp'])

P('C154','The text of a name means what the URI scheme says',
'Component::fromUri accepts exactly the texts of components: a percent-escaped value, a type number with such a value, or one of the named types with a digest in hexadecimal or a decimal number; values of periods only have three more in the text. Name(text) is cut at the slashes, each piece giving one component in order; an empty piece is refused except after the last slash; the first slash may be left out if the first piece has no colon.',
'all octet strings',
'Every string is a possible input; tests try a few spellings.',
['ndn-cxx/name.cpp: Name::Name(std::string_view)','ndn-cxx/name-component.cpp: Component::fromUri','ndn-cxx/impl/name-component-types.hpp'])

P('C155','Key parameters have supported sizes and decide type, size and name of the key',
'RsaKeyParams, EcKeyParams, AesKeyParams and HmacKeyParams exist only with a supported size (2048 to 16384 bits; 224, 256, 384 or 521; 128, 192 or 256; a positive multiple of 8); other sizes throw KeyParams::Error. A key created from them has that type and just that size, and is named by the key id given last, by the digest or by the random number asked for. Types a TPM back-end cannot create are an invalid argument; the only other error is a key id in use.',
'all types, sizes, key ids, histories of setKeyId, back-ends and contents of the back-end',
'Sizes and histories of setters are unbounded.',
['ndn-cxx/security/key-params.hpp','ndn-cxx/security/key-params.cpp','ndn-cxx/security/transform/private-key.cpp: generatePrivateKey','ndn-cxx/security/tpm/back-end.cpp: createKey'])
