status['C07'] = (None, 'First call: full characterisation. Repeated calls after a failure: false of the code (C07_repeat_counterexample, value 01 00 05); the part that holds is C07_repeat_partial.')
status['C09'] = (None, 'Success fully characterised (C09_ok_iff). The claim that every other stream is refused is false of the code (64-bit wrap-around of the size check, C09_counterexample); exact extent: C09_undefined_iff.')
status['C71'] = (None, 'Holds once encode() has been called; false before (C71_counterexample).')
status['C10'] = (None, 'Holds for components whose encoding is the shortest one and whose sizes are below 2^31. False otherwise: C10_nonminimal_counterexample (equal components with compare() != 0), C10_size_counterexample (2^32 octets).')
status['C11'] = (None, 'Names: full. Sub-range comparison with a position beyond the end reads outside the name (C11_subrange_counterexample).')
status['C14'] = (None, 'Canonical format: full. Alternate format: false of the code for number-typed components holding a longer form of a number (C14_alternate_counterexample); exact extent C14_alternate_iff.')
status['C18'] = (None, 'Holds unless the arithmetic wraps around: C18_getSubName_counterexample (start + count beyond 64 bits), C18_getPrefix_counterexample (dropping more components than there are).')
status['C19'] = (None, 'Holds for names with shortest encodings; false for equal names decoded from different encodings (C19_counterexample).')
status['C40'] = (None, 'Hex codec: full, for any splitting into chunks. Chain of hexDecode and a slow consumer: false of the code (C40_decode_chain_counterexample).')
status['C72'] = (None, 'No validation happens on decoding a name (C72_counterexample); what is accepted is characterised exactly by C72_decode_partial.')
status['C21'] = (None, 'Round trip and accepted encodings: full. Decoding into a used object keeps old application elements (C21_reset_counterexample; exact effect C21_reset_partial); re-encoding a decoded MetaInfo can change its meaning (C21_reencode_counterexample).')
status['C22'] = (None, 'Round trip for both variants, accepted encodings and custom elements: full. The cached element of the other variant is returned when both variants are requested from one object (C22_variant_counterexample).')
status['C24'] = (None, 'Holds along all histories in which encode/decode calls do not throw midway. After such an exception wireEncode() returns malformed octets (C24_stale_counterexample).')
status['C29'] = (None, 'C29_digest_partial holds along all succeeding histories; the full statement fails only because setName accepts a digest component without parameters (C29_setName_counterexample), and holds otherwise (C29_valid_partial).')
status['C31'] = (None, 'Encoded and decoded Interests fully characterised. Hostile order leaves SignatureInfo uncovered (C31_siginfo_counterexample), and the concatenated octets do not determine where the name ends (C31_concat_counterexample); both hold with the stated side conditions.')
status['C73'] = (None, 'Holds along histories without exceptions; after an exception in wireEncode()/wireDecode() the refused octets are returned (C73_stale_counterexample).')
status['C74'] = (None, 'Fails for setSignatureInfo only (C74_setSignatureInfo_counterexample).')
status['C75'] = (None, 'Fails when a parameter follows the SignatureInfo and there is no signature value yet (C75_trailing_counterexample).')
status['C76'] = (None, 'Fails for repeated ApplicationParameters or late HopLimit elements (C76_repeated_counterexample).')
status['C32'] = (None, 'Refinement to a multimap and canonical order proved for all histories. The round trip fails for a packet whose only field is a fragment that is not exactly one Interest or Data (C32_nested_counterexample, C32_encode_counterexample; exact condition in C32_lone_roundtrip_partial); set() with a value that cannot be encoded loses the old value (C32_set_counterexample).')
status['C34'] = (None, 'Strict total order proved for all codes. Codes of 2^31 and above make decoding throw instead of reading as NONE (C34_unknown_counterexample).')
status['C36'] = (None, 'Holds for all histories in which no handler throws after disconnecting itself (and nothing the documentation calls undefined is done). Otherwise the disconnected handler stays and is called again (C36_zombie_counterexample); a throwing single-shot handler runs again (C36_singleShot_counterexample).')
status['C37'] = (None, 'The floating-point moving averages are arbitrary functions; integer overflow is an explicit outcome, excluded by C37_defined under stated bounds.')
status['C38'] = (None, 'Both overloads; key chain is a parameter.')
status['C42'] = (None, 'Holds for limits of 16 and more, and for smaller positive limits as long as erase() is not called; otherwise erase() raises the capacity above the limit (C42_small_limit_counterexample, C42_small_limit_overflow).')
status['C43'] = (None, 'find(Name): full. find(Interest): full except that an Interest carrying the full name of a stored packet gets it even if it is stale and MustBeFresh is set (C43_exact_counterexample).')
status['C44'] = (None, 'Specification automaton for all four policies. Retrieval by an Interest with the full name does not count as a use for LRU/LFU (C44_exact_counterexample).')
status['C45'] = (None, 'Erasing by full name: full. Erasing by prefix: fails when the prefix is itself the full name of a stored packet (C45_erase_prefix_counterexample).')
status['C78'] = (None, 'Fails on an empty storage: begin() dereferences the end iterator (C78_empty_counterexample).')
status['C39'] = (None, 'The signals are right in all executions (C39_signals, C39_inOrder_all, C39_stop; fewer than 2^63 signals). Segments of different objects can be mixed when the first Interest is answered after it was cancelled (C39_object_counterexample; C39_object_partial otherwise). Undefined behaviour is possible with asynchronous validation, inconsistent FinalBlockIds, an Interest ending in a segment number, and handlers that stop the fetcher (four counterexamples; C39_defined_partial otherwise). Completion is signalled although a handler stopped the fetcher (C39_stop_counterexample).')
status['C79'] = (None, 'Holds in the block mode with a validator answering at once (C79_no_hang_partial). In the in-order mode the fetcher can hang (C79_inOrder_counterexample).')
status['C41'] = (None, 'Accepted texts, soundness of matches, expressions made from names: full. Exactness and termination fail for groups that match the empty name under a quantifier that demands or allows unboundedly many repetitions (C41_exact_counterexample, C41_terminates_counterexample), and hold otherwise. References are right for groups that took part in the match; others keep what an earlier attempt left (C41_captures_counterexample); groups in component expressions capture URI text (C41_component_counterexample); a template ending in a literal is refused (C41_expand_counterexample). std::regex is a parameter.')
status['C47'] = (None, 'Holds for histories in which no callback throws, from the moment the posted cancel handler runs. A Data processed between the cancel() call and its handler still reaches the callback (C47_cancel_counterexample); a throwing Data callback is invoked again (C47_throw_counterexample); a throwing timeout callback leaves the Interest pending without a timer (C47_timeout_throw_counterexample). Soundness of the callbacks holds for all histories (C47_sound).')
status['C48'] = (None, 'Full for callbacks that do not throw, from any table content; fails when one throws (C48_throw_counterexample).')
status['C49'] = (None, 'The number of Nacks received since the Interest was made reaches the number of destinations, and the reason is a least severe one of them. Nacks do not identify their source: two from one destination count as two (C49_repeat_counterexample). The assertion on the count is reachable (C49_assert_counterexample).')
status['C50'] = (None, 'Exact for histories without throwing callbacks, sound for all; "unset" is when the posted handler runs (C50_unset_counterexample).')
status['C80'] = (None, 'Callback counts and activation proved for all histories. Unregistering before the registration is answered fails and the prefix becomes active afterwards (C80_early_counterexample); shutdown forgets registrations but leaves their filters active (C80_shutdown_counterexample).')
status['C53'] = (None, 'Full for sequential validation of v0.3 Interests, for each of the three checks, with LRU eviction and the nonce window; completeness and the grace period hold for every schedule. Overlapping validations accept replays and move the record back (C53_overlap/rollback_counterexample); v0.2 Interests bypass the policy (C53_v02_counterexample); a throwing success callback leaves no record (C53_throw_counterexample); large SignatureTime values overflow (C53_defined_counterexample).')
status['C54'] = (None, 'Full for sequential validation, including that no timestamp is accepted twice when the record lifetime exceeds twice the grace period; overlapping validations accept replays (C54_overlap_counterexample); large timestamps overflow (C54_defined_counterexample).')
status['C58'] = (None, 'Full.')
status['C55'] = (None, 'Soundness of look-ups: full, for every history and clock. Completeness: full for certificates whose insertion took effect; an insertion is ignored while a certificate of the same name is stored, even past its deadline (C55_inserted_counterexample, C55_extend_counterexample). The deadline overflows for extreme lifetimes (C55_defined_counterexample).')
status['C56'] = (None, 'Validity test, inward rounding, calendar (against the rule for the next day), round trip and clamping: full for representable instants. Comparisons overflow within a second of the ends of the 64-bit range (C56_defined_counterexample); decoding overflows for hours above 23 (C56_decode_defined_counterexample), lets std::out_of_range escape for dates that do not exist (C56_errors_counterexample), and a failed decode leaves the refused octets as the encoding (C56_history_counterexample).')
status['C51'] = (None, 'For every history, policy and network: full (C51_chain), with the converse for chains supplied by the network (C51_complete). Validity of fetched certificates is checked on receipt, that of anchors never (C51_current_counterexample, C51_current_fetched_counterexample); certificates verified with anchors since removed stay trusted for up to an hour (C51_reset_counterexample). Re-entrant calls from callbacks and asynchronous policies are not modelled.')
status['C52'] = (None, 'Full for callbacks that do not throw: one outcome, at most D certificates, at most four Interests each, termination after at most 8*D answers. A throwing callback gives two outcomes (C52_throwing_counterexample); a certificate without a validity period makes an exception leave the event loop (C52_exception_counterexample).')
status['C59'] = (None, 'Accepted configurations and the decision on every packet are characterised exactly, for every earlier history. The code takes a rule when some of its filters matches, not all (C59_counterexample); answers can depend on packets checked before, through captures of hyper-relations (C59_history_counterexample); a refused configuration stays in force as far as it was read (C59_refused_counterexample); checks can throw or not end (C59_exception_counterexample, C59_terminates_counterexample); a key name demanded with relation equal is never satisfied (C59_keyname_counterexample); some unknown properties are ignored (C59_ignored_counterexample); three texts are undefined behaviour (C59_undefined_counterexample). std::regex is a parameter.')
status['C60'] = (None, 'Full: relations, words, identities, simple hierarchy and the hierarchical checker are characterised exactly; C60_hierarchies_differ shows where the last two differ.')
status['C61'] = (None, 'For every history of calls, clock and file system: trusted certificates are listed and were given (C61_sound), groups list what their specification says, find is exact. The converse fails for names listed by several groups, because all share one set (C61_counterexample, C61_remove_counterexample, C61_insert_counterexample), and holds otherwise (C61_exact_partial). A group that cannot be created leaves certificates behind (C61_orphan_counterexample); the period of configurations without refresh overflows (C61_defined_counterexample). File contents and the clock are arguments of the calls.')
status['C57'] = (None, 'Both back ends, for every sequence of calls with names the front end lets through. pib-sqlite3 (tables with their triggers and cascades): exact. pib-memory: defaults exist and belong to their parents, parents take their children with them, but removing a key that is not the default clears the default key (C57_memory_counterexample), hence C57_memory_exact_partial. SQLite itself and the TPM locator are not modelled.')
status['C81'] = (None, 'Proved for every sequence of calls over both back ends, as long as a certificate given to setDefaultCertificate has the public key of the key, no certificate replaces the default one under its name and, with pib-memory, only default keys are removed. Counterexamples: setDefaultCertificate does not check the public key and overwrites the stored one; a replaced default certificate is still answered from the cache; pib-memory loses the default key when another key is removed and an assertion then fails; addIdentity of an existing identity does not make it the default.')
status['C62'] = (None, 'Decoding is characterised exactly, round trip for all field combinations, and after any history of setters, unsetters, encodings and decodings wireEncode gives the current fields. Flag bits: full for bits 0 to 30; bit 31 is sign-extended (C62_bit31_counterexample) and from bit 32 on the shift is undefined behaviour (C62_bit32_counterexample).')
status['C63'] = (None, 'Full for the eleven commands that take ControlParameters: acceptance of requests and responses, defaults, names, and parameters carried by the Interest. rib/announce takes a prefix announcement instead (see C70); its response is that of rib/register.')
status['C64'] = (None, 'Full, for every sequence of calls by a handler (fewer than 2^64 bytes), with the result of every call.')
status['C65'] = (None, 'Full, for every history of registrations and removals.')
status['C82'] = (None, 'Proved for every history of events: each observation is determined by the past as documented (C82_processing), and no command handler runs without an accepted authorization of the same request (C82_authorized). An Interest named exactly as an old-style command makes the dispatcher read past the end of the name (C82_memory_counterexample); this is the only such case (C82_memory_partial, C82_memory_elsewhere). Storage look-ups are arguments of the events; signing is left out; the global component conventions are taken to be consistent.')
status['C83'] = (None, 'Registering a stream under the full name of one that was used resets its numbers (C83_counterexample); otherwise full (C83_consecutive_partial), in particular when streams are registered before anything is posted (C83_register_first).')

status['C66'] = (None, 'Proved for every history without pause: any division into reads, with completions and other calls interleaved (C66_framing_partial, C66_packets_partial, C66_all_partial), no spurious error (C66_no_error_partial), and an element that does not fit closes the transport (C66_oversize_partial). False with pause/resume: resume drops a partly received packet (C66_counterexample), and a read that completed before pause leads to two reads into one buffer (C66_double_read).')
status['C67'] = (None, 'Order and exactly-once for every history (C67_order). Progress proved when pause is called only with nothing left to send (C67_progress_partial); a pause during a write stops all sending for ever (C67_stall_forever, C67_counterexample).')
status['C84'] = (None, 'False as stated: completions that race with close or pause are still acted upon, up to a null pointer dereference, and a connection being resolved is established after close (C84_close_counterexample, C84_close_read, C84_close_resolving, C84_close_connected, C84_pause_counterexample). Proved when no completed operation is waiting for its handler (C84_close_partial, C84_pause_partial).')

status['C68'] = (None, 'Full for every history for: n then n+1 (C68_next, C68_requests), falling back (C68_fallback, C68_after_backoff), stop (C68_stop), never idle (C68_never_idle), doubling (C68_backoff_doubles). False of the code: stop does not cancel the back-off timer, so after a restart it replaces the Interest for the next notification (C68_timer_counterexample); the back-off is never reset and overflows the scheduler clock on the 37th Nack in a row (C68_delay_counterexample); number 2^64-1 starts at 400 ms (C68_backoff_counterexample).')

status['C69'] = (None, 'Full for editing (C69_add, C69_remove, C69_nodup) and decoding (C69_decode_exact). Round trip for every history of a Link made from a name or a packet (C69_roundtrip_partial, C69_content); false for a default-constructed Link without delegations, which is encoded as an ordinary Data packet (C69_default_counterexample); after a failed wireDecode the delegations are not those of the packet (C69_failed_decode_counterexample).')
status['C70'] = (None, 'Acceptance and round trip are full for every history (C70_announcement_exact, C70_announcement_roundtrip, C70_metadata_exact, C70_metadata_make, C70_discovery). False of the code: an expiration period of 2^63 ms or more becomes negative (C70_expiration_counterexample); an impossible date in the validity period throws std::out_of_range instead of tlv::Error (C70_exception_counterexample); when signing throws, the unsigned packet is kept and returned by the next toData (C70_signed_counterexample).')

status['C85'] = (None, 'Full for decoding, round trip, setters and every history with successful decodings. After a failed decode the object caches the rejected element and encodes it (C85_failed_counterexample), except when the element is of another type (C85_failed_partial).')
status['C86'] = (None, 'Full for decoding, round trip, setters and every history with successful decodings, for all ten items. False of the code: a failed decode leaves half-assigned fields and caches the rejected element (C86_failed_counterexample); forwarder time stamps are truncated to milliseconds (C86_forwarder_roundtrip_counterexample) and large ones overflow (C86_forwarder_decode_counterexample); both partial theorems say exactly when not.')
status['C87'] = (None, 'Full except that a restriction placed out of order in an accepted element is silently lost (C87_reflected_counterexample); elements in the published order are reflected completely (C87_reflected_partial).')
status['C88'] = (None, 'Full except that an empty payload for cs/info throws std::invalid_argument (C88_error_counterexample); every other payload that is not a dataset throws tlv::Error (C88_error_partial).')
status['C89'] = (None, 'Full.')
status['C90'] = (None, 'False for bits 31 to 63, where the mask is computed with a 32-bit shift (C90_bits_counterexample, C90_bits_undefined); full for bits below 31 (C90_bits_partial) and above 63 (C90_bits_range).')
status['C91'] = (None, 'Proved for every history: each observation is determined by the past as documented (C91_processing), at most one outcome (C91_once), success only for a validated answer that reports it (C91_success, C91_understood). False of the code: a command whose Data arrives after the Controller was destroyed, or a dataset callback that destroys it, is undefined behaviour (C91_defined_counterexample, C91_callback_counterexample); an empty cs/info payload calls neither callback (C91_reported_counterexample). The partial theorems cover everything else.')

status['C92'] = (None, 'Reading is full (C92_read). Round trip except for HMAC, which is printed as an identity (C92_hmac_counterexample), the identity called /localhost/identity/digest-sha256 (C92_digest_counterexample), and names that do not survive the alternate URI format (see C14).')
status['C93'] = (None, 'Proved for every history within KFits (the calls C94 needs), for any crypto operations whose signatures verify. Contrary to the documentation: a certificate that does not exist is accepted (C93_cert_counterexample), a KeyLocator given is not overwritten (C93_locator_counterexample), a name of no key gives std::invalid_argument (C93_name_counterexample), another digest algorithm is still labelled Sha256With... (C93_algorithm_counterexample), SigningInfo(HMAC, name) uses a null pointer (C93_null_key_counterexample).')
status['C94'] = (None, 'Proved for every history of the calls within KFits, over both back ends. Ruled out: setDefaultCertificate with a certificate of another public key, which replaces the public key stored (C94_sqlite_counterexample, C94_memory_counterexample); createHmacKey or createKey whose digest-made name is in use in the TPM, which replaces that private key (C94_hmac_overwrites_counterexample). createKey with HMAC parameters throws and leaves a key in the TPM (C94_hmac_orphan_counterexample).')
status['C95'] = (None, 'Proved for all calls but deleteIdentity, which deletes the private keys before the PIB entry (C95_sqlite_counterexample). Each access to a store is taken as atomic.')
status['C96'] = (None, 'Proved for every history within KFits.')

status['C97'] = (None, 'Reading is full (C97_parse, C97_unique) and so is the round trip of everything that was read (C97_roundtrip, C97_injective) and of Ethernet addresses and file descriptors. False of the code: an interface called e:1 reads back as interface e and port 1 (C97_dev_counterexample), a relative path does not read back (C97_unix_counterexample), IPv4-mapped endpoints do not read back (C97_endpoint_counterexample); the partial theorems say exactly for which values it works.')
status['C98'] = (None, 'Full.')
status['C99'] = (None, 'Round trip and injectivity full, for both readings of 0x by the C library. Other texts are accepted too, with blanks and signs (C99_only_counterexample); whatever is accepted has six numbers below 256 in hexadecimal (C99_only_partial).')
status['C100'] = (None, 'False of the code: a link-local address without zone fails an assertion (C100_result_counterexample); the null Ethernet address and a bracketed interface are canonical but not fixed (C100_fixed_counterexample); ports 1, 01 and 99999 are all canonical (C100_unique_counterexample). Proved for everything else, over any IP library that reads back what it prints.')
status['C101'] = (None, 'False of the code: a timeout that expires while the finished resolution waits to be delivered leads to both callbacks (C101_once_counterexample; the header of dns.hpp warns of it). At most two, the first being the timeout (C101_dns); at most one otherwise (C101_once_partial); at least one (C101_progress).')
status['C102'] = (None, 'Decoding, iteration and set are full. False of the code: set does not discard the cached encoding (C102_current_counterexample), and a refused element stays as the encoding (C102_failed_counterexample). C102_current_partial: nothing is set once there is an encoding.')
status['C103'] = (None, 'Decoding and round trip full. The bag encodes the certificate from its members, which drops elements that are to be ignored, so its signature no longer verifies (C103_octets_counterexample); C103_octets_partial: certificates whose octets are the encoding of their members.')
status['C104'] = (None, 'Full; the validity period is C56.')
status['C105'] = (None, 'Proved for every pair of histories within KFits over both back ends, for private keys that can be written and read back. A certificate for another public key, made default, can be exported but not imported (C105_counterexample). The bag is a pair here; its octets are C103.')
status['C106'] = (None, 'C106_existing is full for loggers that exist. The whole history: false for patterns such as a* that do not end at a dot (C106_level_counterexample: a logger created later does not get the level); C106_level_partial: the patterns of the documentation.')
status['C107'] = (None, 'Reading is full. A refused text keeps the pairs before the first malformed one (C107_refused_counterexample; C107_refused_partial says exactly which).')
status['C108'] = (None, 'C108_once, C108_match, C108_bound and C108_ends are full. False of the code: a bundle segment without the certificate asked for leads to a null pointer (C108_defined_counterexample); C108_defined_partial: a segment that has it continues the validation.')
status['C109'] = (None, 'Names and FinalBlockId full. The segment after 255, 65535 and 4294967295 is asked for under a wrong component (C109_next_counterexample); C109_next_partial: all others.')
status['C110'] = (None, 'Full.')
status['C111'] = (None, 'Full, for modules that take what is written to them; OpenSSL is a parameter. A downstream that takes only part of a write is C40.')
status['C112'] = (None, 'Full.')
status['C113'] = (None, 'Public keys and digests full. With an HMAC key only as many octets are compared as both have: an empty signature verifies everything (C113_hmac_counterexample, C113_empty; C113_hmac_accepted says exactly what is accepted). C113_hmac_partial: signatures of the length of the HMAC.')
status['C114'] = (None, 'Full.')
status['C115'] = (None, 'Full; what is asked of base64 is proved of base64 as in RFC 4648 (C115_base64).')
status['C116'] = (None, 'Full; keys are as in C113.')
status['C117'] = (None, 'Acceptance full, for both formats. Authenticity fails if names may have components of type 36, as the octets signed do not show where the name ends (C117_authentic_counterexample); C117_authentic_partial: without such components.')
status['C118'] = (None, 'Fails: a name component may have the type of a name, so that an Interest and a Data packet have the same signed octets (C118_separate_counterexample). C118_separate_partial, C118_no_data: for Interests whose names do not begin with a component of type 7.')
status['C119'] = (None, 'Fails if the Interest has a signature in the new format already (C119_resigned_counterexample) or the signature information was cached in the new format (C119_cached_counterexample). C119_old_partial: neither is the case.')
status['C120'] = (None, 'Attributes full. A datagram whose last message is not padded makes the remaining length negative, and left-over octets are handled (C120_messages_counterexample); C120_messages_partial: the length of the datagram is a multiple of four.')
status['C121'] = (None, 'Order and foreign messages full. The answer to a request numbered 0 removes the handler of notifications (C121_notified_counterexample), and after an error as an answer the enumeration never ends (C121_completes_counterexample). Partial: no request is numbered 0, answers end with a message saying so.')
status['C122'] = (None, 'Full for the signals and the effect of each message. An interface taken out of a bridge is removed from the list (C122_bridge_counterexample).')
status['C123'] = (None, 'Effect of each message full. An address the system has with two prefix lengths is gone when one of them is removed (C123_system_counterexample); C123_system_partial: one prefix length for each.')
status['C124'] = (None, 'Isolation and agreement of the lookups are proved without conditions. That what is reported as stored is stored is false: nobody looks at the stream after flushing it or after failing to open it, so a full disk loses a new key silently, and a file without a key left over by it (which the owner may not write to) makes every later attempt fail silently. Proved with space on the disk and a file that can be written; and the whole history refined to a map when nothing goes wrong. Encodings and digests are parameters with stated laws.')
status['C125'] = (None, 'Atomicity per name at every crash point is proved (if digests of public keys do not collide). That a key can be stored again afterwards is false after a call on a full disk, and proved otherwise.')
status['C126'] = (None, 'False: the key is written before the permissions are changed, so with the usual umask others can read it in between, and for ever if the program is stopped there. Proved for umasks that keep others out, through any crashes; and between calls for every umask without crashes.')
status['C127'] = (None, 'False for two Tpm objects on one directory: one goes on using a key that was deleted through the other. Proved for any history in which one object does everything or nothing is deleted.')
status['C128'] = (None, 'Full.')
status['C129'] = (None, 'Linking, effect on others and mismatches full. False: the default PIB is erased without permission when opened with another TPM (C129_kept_counterexample); the next program gets the default TPM instead of the one it asks for (C129_supplied_counterexample); valid locators are refused if the unused default is invalid (C129_valid_counterexample); texts are compared, not directories (C129_alias_counterexample). Each has a partial theorem for the remaining cases. Opening a back end does not fail in the model.')
status['C130'] = (None, 'False if a database is used with a TPM in memory (C130_matched_counterexample) or if two KeyChains exist at once (C130_files_counterexample). C130_matched_partial: one KeyChain at a time, databases with TPMs in files, all histories and crashes while a KeyChain is made.')
status['C131'] = (None, 'Certificates, errors and independence of the segments full. Octets that no element can begin with are not reported (C131_stuck_counterexample); C131_stuck_partial: as long as a legal type can come out of them.')
status['C132'] = (None, 'URIs full. False if the file that counts cannot be opened: it is taken for an empty one (C132_asked_counterexample); C132_asked_partial for the rest. The host of a unix URI is ignored (C132_host_counterexample); tcp4 and tcp6 with a host name mean the same (C132_family_counterexample). The reader of configuration files is a parameter.')
status['C133'] = (None, 'False if a plain handle is copied: both copies cancel (C133_once_counterexample). C133_once_partial: every history without such copies. The functions that cancel do not use handles.')
status['C134'] = (None, 'False: assigning a ScopedConnection to another leaves the connection of the latter connected for good (C134_scoped_counterexample). C134_scoped_partial: every history in which no ScopedConnection is assigned to a connected one.')

status['C135'] = (None, 'C135_commands_partial: every sequence of commands; excluded are certificate files that are none or replace the default certificate by another of its name, keys named by a digest already in use, and test messages that do not tell. key-gen -n, set-default -c and cert-install -N set missing defaults against their help texts (counterexamples). list, export and the parsing of options are not modelled.')
status['C136'] = (None, 'False for delete of an identity (C136_counterexample). C136_*_partial: all other commands killed anywhere.')
status['C137'] = (None, 'The enrolment in full; but cert-gen does not check the signature of the request (C137_request_counterexample), and without a default identity makes certificates with only a digest (C137_signed_counterexample).')

status['C138'] = (None, 'C138_intact in full. C138_lossless_partial: completion without losses, for the mode that is not in order and when all Interests answered were not cancelled.')

status['C139'] = (None, 'C139_dataset and C139_rejected in full. C139_versions_partial: several versions, if no Interest is answered after it was cancelled (C39_object_counterexample).')
status['C140'] = (None, 'In full for the commands whose parameters are in the name; for rib/announce see C145.')

status['C141'] = (None, 'Partial because, as in C83, it assumes that no stream is registered under the full name of a stream already used (C83_counterexample), and because handlers that call the subscriber are left to C68.')

status['C142'] = (None, 'In full for Interests without a digest component elsewhere in the name and without SignatureInfo and SignatureValue; for those already signed see C75.')

status['C143'] = (None, 'C143_sqlite_partial, C143_memory_partial: excluded are the calls that C92 excludes, digest algorithms other than SHA-256 (C93_algorithm_counterexample), and Interests already signed (C75, C119).')

status['C144'] = (None, 'In full as stated. Partial because the times can leave the grace period although they are validated when they are made: after the clock was set back (C144_clock_counterexample) and after bursts (C144_burst_counterexample).')

status['C145'] = (None, 'In full as stated, given that the packet of the announcement can be encoded. Partial because an announcement whose signing failed passes the check (C145_valid_counterexample).')
status['C146'] = (None, 'C146_sqlite_partial, C146_memory_partial: excluded are the calls that C92 excludes, digest algorithms other than SHA-256 and periods with bounds outside the range of the clock (C56_defined_counterexample). Certificates signed with a digest or an HMAC key are not covered.')
status['C147'] = (None, 'In full as stated. Partial because linking a face to itself makes its destruction undefined (C147_self_counterexample) and callbacks must not change the link on which they are called (C147_callbacks_counterexample).')
status['C148'] = (None, 'In full as stated. Partial because valid commands without flags or with face ID zero are not reported as successes (C148_success_counterexample, C148_self_counterexample) and some Interests make the face throw (C148_throws_counterexample).')
status['C149'] = (None, 'In full as stated, for streams with default flags in the C locale.')
status['C150'] = (None, 'In full as stated. Partial because a flush within a line divides it (C150_flush_counterexample).')
status['C151'] = (None, 'In full as stated. Partial because a packet within 8800 octets is refused if its tags make the LpPacket larger (C151_size_counterexample).')
status['C152'] = (None, 'In full as stated. Partial because an observer that calls the monitor from its handler misleads those connected after it (C152_observers_counterexample). Renaming an interface after it was added is not modelled.')
status['C153'] = (None, 'In full as stated. The objects pointed to are not modelled; copies share them.')
status['C154'] = (None, 'In full as stated; scheme and authority in front of the path are C14_scheme and C14_authority.')
status['C155'] = (None, 'Sizes, generation and naming in full. Partial because setKeyId is ignored by parameters made without a key id and by HMAC keys (C155_set_id_counterexample), and can set an empty id (C155_not_empty_counterexample). The generation itself is a request to the library of cryptography.')
