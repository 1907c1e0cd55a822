{
 "claims": [
  {
   "property": "C01",
   "status": "proved",
   "theorems": [
    "Ndn.Tlv.C01_write",
    "Ndn.Tlv.C01_roundtrip"
   ],
   "note": ""
  },
  {
   "property": "C02",
   "status": "proved",
   "theorems": [
    "Ndn.Tlv.C02_readVarNumber_iff",
    "Ndn.Tlv.C02_readType_iff",
    "Ndn.Tlv.C02_readVarNumber_fail_iff",
    "Ndn.Tlv.C02_stable",
    "Ndn.Tlv.C02_slow_path"
   ],
   "note": ""
  },
  {
   "property": "C03",
   "status": "proved",
   "theorems": [
    "Ndn.Tlv.C03_write",
    "Ndn.Tlv.C03_read_iff",
    "Ndn.Tlv.C03_read_fail_iff",
    "Ndn.Tlv.C03_roundtrip",
    "Ndn.Tlv.C03_readAs_iff"
   ],
   "note": ""
  },
  {
   "property": "C04",
   "status": "proved",
   "theorems": [
    "Ndn.Encoder.C04_deque",
    "Ndn.Encoder.C04_total_size",
    "Ndn.Encoder.C04_no_realloc",
    "Ndn.Encoder.C04_initial"
   ],
   "note": ""
  },
  {
   "property": "C05",
   "status": "proved",
   "theorems": [
    "Ndn.Block.C05_roundtrip",
    "Ndn.Block.C05_injective"
   ],
   "note": ""
  },
  {
   "property": "C06",
   "status": "proved",
   "theorems": [
    "Ndn.Block.C06_iff",
    "Ndn.Block.C06_fail_iff",
    "Ndn.Block.C06_stable",
    "Ndn.Block.C06_cure",
    "Ndn.Block.C06_whole_buffer",
    "Ndn.Block.C06_from_value",
    "Ndn.Block.C06_equals",
    "Ndn.Block.C06_offset"
   ],
   "note": ""
  },
  {
   "property": "C07",
   "status": "partial",
   "theorems": [
    "Ndn.Block.C07_parse_iff",
    "Ndn.Block.C07_unique",
    "Ndn.Block.C07_idempotent",
    "Ndn.Block.C07_repeat_counterexample",
    "Ndn.Block.C07_repeat_partial",
    "Ndn.Block.C07_left_behind"
   ],
   "note": "First call: full characterisation. Repeated calls after a failure: false of the code (C07_repeat_counterexample, value 01 00 05); the part that holds is C07_repeat_partial."
  },
  {
   "property": "C08",
   "status": "proved",
   "theorems": [
    "Ndn.Block.C08_built",
    "Ndn.Block.C08_decodes",
    "Ndn.Block.C08_decoded",
    "Ndn.Block.C08_estimate_suffices"
   ],
   "note": ""
  },
  {
   "property": "C09",
   "status": "partial",
   "theorems": [
    "Ndn.Block.C09_ok_iff",
    "Ndn.Block.C09_undefined_iff",
    "Ndn.Block.C09_counterexample",
    "Ndn.Block.C09_partial"
   ],
   "note": "Success fully characterised (C09_ok_iff). The claim that every other stream is refused is false of the code (64-bit wrap-around of the size check, C09_counterexample); exact extent: C09_undefined_iff."
  },
  {
   "property": "C10",
   "status": "partial",
   "theorems": [
    "Ndn.Name.C10_compare",
    "Ndn.Name.C10_total_order",
    "Ndn.Name.C10_eq",
    "Ndn.Name.C10_nonminimal_counterexample",
    "Ndn.Name.C10_size_counterexample"
   ],
   "note": "Holds for components whose encoding is the shortest one and whose sizes are below 2^31. False otherwise: C10_nonminimal_counterexample (equal components with compare() != 0), C10_size_counterexample (2^32 octets)."
  },
  {
   "property": "C11",
   "status": "partial",
   "theorems": [
    "Ndn.Name.C11_compare",
    "Ndn.Name.C11_equals",
    "Ndn.Name.C11_total_order",
    "Ndn.Name.C11_prefix_first",
    "Ndn.Name.C11_subrange",
    "Ndn.Name.C11_subrange_counterexample"
   ],
   "note": "Names: full. Sub-range comparison with a position beyond the end reads outside the name (C11_subrange_counterexample)."
  },
  {
   "property": "C12",
   "status": "proved",
   "theorems": [
    "Ndn.Name.C12_prefix",
    "Ndn.Name.C12_range",
    "Ndn.Name.C12_empty"
   ],
   "note": ""
  },
  {
   "property": "C13",
   "status": "proved",
   "theorems": [
    "Ndn.Name.C13_component",
    "Ndn.Name.C13_name",
    "Ndn.Name.C13_empty"
   ],
   "note": ""
  },
  {
   "property": "C14",
   "status": "partial",
   "theorems": [
    "Ndn.Name.C14_canonical",
    "Ndn.Name.C14_component_canonical",
    "Ndn.Name.C14_alternate_partial",
    "Ndn.Name.C14_component_alternate_partial",
    "Ndn.Name.C14_alternate_counterexample",
    "Ndn.Name.C14_alternate_iff",
    "Ndn.Name.C14_scheme",
    "Ndn.Name.C14_authority",
    "Ndn.Name.C14_with_scheme_and_authority",
    "Ndn.Name.C14_injective"
   ],
   "note": "Canonical format: full. Alternate format: false of the code for number-typed components holding a longer form of a number (C14_alternate_counterexample); exact extent C14_alternate_iff."
  },
  {
   "property": "C15",
   "status": "proved",
   "theorems": [
    "Ndn.Name.C15_component",
    "Ndn.Name.C15_name"
   ],
   "note": ""
  },
  {
   "property": "C16",
   "status": "proved",
   "theorems": [
    "Ndn.Name.C16_roundtrip",
    "Ndn.Name.C16_exclusive",
    "Ndn.Name.C16_is_iff_to",
    "Ndn.Name.C16_assigned"
   ],
   "note": ""
  },
  {
   "property": "C17",
   "status": "proved",
   "theorems": [
    "Ndn.Name.C17_history",
    "Ndn.Name.C17_fresh"
   ],
   "note": ""
  },
  {
   "property": "C18",
   "status": "partial",
   "theorems": [
    "Ndn.Name.C18_at",
    "Ndn.Name.C18_getSubName_partial",
    "Ndn.Name.C18_getSubName_counterexample",
    "Ndn.Name.C18_getPrefix_partial",
    "Ndn.Name.C18_getPrefix_counterexample"
   ],
   "note": "Holds unless the arithmetic wraps around: C18_getSubName_counterexample (start + count beyond 64 bits), C18_getPrefix_counterexample (dropping more components than there are)."
  },
  {
   "property": "C19",
   "status": "partial",
   "theorems": [
    "Ndn.Name.C19_hash_partial",
    "Ndn.Name.C19_counterexample"
   ],
   "note": "Holds for names with shortest encodings; false for equal names decoded from different encodings (C19_counterexample)."
  },
  {
   "property": "C20",
   "status": "proved",
   "theorems": [
    "Ndn.Hex.C20_escape_form",
    "Ndn.Hex.C20_roundtrip",
    "Ndn.Hex.C20_injective",
    "Ndn.Hex.C20_malformed",
    "Ndn.Hex.C20_wellformed"
   ],
   "note": ""
  },
  {
   "property": "C21",
   "status": "partial",
   "theorems": [
    "Ndn.Packet.C21_freshness",
    "Ndn.Packet.C21_setters",
    "Ndn.Packet.C21_roundtrip",
    "Ndn.Packet.C21_decode_exact",
    "Ndn.Packet.C21_reset_counterexample",
    "Ndn.Packet.C21_reset_partial",
    "Ndn.Packet.C21_reencode_counterexample",
    "Ndn.Packet.C21_history_partial"
   ],
   "note": "Round trip and accepted encodings: full. Decoding into a used object keeps old application elements (C21_reset_counterexample; exact effect C21_reset_partial); re-encoding a decoded MetaInfo can change its meaning (C21_reencode_counterexample)."
  },
  {
   "property": "C22",
   "status": "partial",
   "theorems": [
    "Ndn.Packet.C22_locator",
    "Ndn.Packet.C22_setters",
    "Ndn.Packet.C22_keylocator",
    "Ndn.Packet.C22_roundtrip",
    "Ndn.Packet.C22_decode_exact",
    "Ndn.Packet.C22_variant_counterexample",
    "Ndn.Packet.C22_history_partial",
    "Ndn.Packet.C22_custom_add",
    "Ndn.Packet.C22_custom_order",
    "Ndn.Packet.C22_custom_remove"
   ],
   "note": "Round trip for both variants, accepted encodings and custom elements: full. The cached element of the other variant is returned when both variants are requested from one object (C22_variant_counterexample)."
  },
  {
   "property": "C23",
   "status": "proved",
   "theorems": [
    "Ndn.Packet.C23_roundtrip"
   ],
   "note": ""
  },
  {
   "property": "C24",
   "status": "partial",
   "theorems": [
    "Ndn.Packet.C24_stale_counterexample",
    "Ndn.Packet.C24_coherent_partial",
    "Ndn.Packet.C24_encode_keeps_fields"
   ],
   "note": "Holds along all histories in which encode/decode calls do not throw midway. After such an exception wireEncode() returns malformed octets (C24_stale_counterexample)."
  },
  {
   "property": "C25",
   "status": "proved",
   "theorems": [
    "Ndn.Interest.C25_interest_insert",
    "Ndn.Interest.C25_interest_critical",
    "Ndn.Interest.C25_interest_order",
    "Ndn.Packet.C25_data_exact",
    "Ndn.Packet.C25_data_insert",
    "Ndn.Packet.C25_data_critical",
    "Ndn.Packet.C25_data_order"
   ],
   "note": ""
  },
  {
   "property": "C26",
   "status": "proved",
   "theorems": [
    "Ndn.Packet.C26_covers",
    "Ndn.Packet.C26_injective",
    "Ndn.Packet.C26_signing"
   ],
   "note": ""
  },
  {
   "property": "C27",
   "status": "proved",
   "theorems": [
    "Ndn.Packet.C27_identify",
    "Ndn.Packet.C27_shape"
   ],
   "note": ""
  },
  {
   "property": "C28",
   "status": "proved",
   "theorems": [
    "Ndn.Interest.C28_decode_exact",
    "Ndn.Interest.C28_decode_fresh",
    "Ndn.Interest.C28_roundtrip",
    "Ndn.Interest.C28_wireEncode",
    "Ndn.Interest.C28_injective"
   ],
   "note": ""
  },
  {
   "property": "C29",
   "status": "partial",
   "theorems": [
    "Ndn.Interest.C29_setName_counterexample",
    "Ndn.Interest.C29_digest_partial",
    "Ndn.Interest.C29_valid_partial",
    "Ndn.Interest.C29_check",
    "Ndn.Interest.C29_other_components"
   ],
   "note": "C29_digest_partial holds along all succeeding histories; the full statement fails only because setName accepts a digest component without parameters (C29_setName_counterexample), and holds otherwise (C29_valid_partial)."
  },
  {
   "property": "C30",
   "status": "proved",
   "theorems": [
    "Ndn.Interest.C30_match",
    "Ndn.Interest.C30_match_data",
    "Ndn.Interest.C30_no_fullname"
   ],
   "note": ""
  },
  {
   "property": "C31",
   "status": "partial",
   "theorems": [
    "Ndn.Interest.C31_decoded",
    "Ndn.Interest.C31_encoded",
    "Ndn.Interest.C31_siginfo_counterexample",
    "Ndn.Interest.C31_siginfo_partial",
    "Ndn.Interest.C31_injective",
    "Ndn.Interest.C31_concat_counterexample",
    "Ndn.Interest.C31_concat_partial"
   ],
   "note": "Encoded and decoded Interests fully characterised. Hostile order leaves SignatureInfo uncovered (C31_siginfo_counterexample), and the concatenated octets do not determine where the name ends (C31_concat_counterexample); both hold with the stated side conditions."
  },
  {
   "property": "C32",
   "status": "partial",
   "theorems": [
    "Ndn.Lp.C32_canonical",
    "Ndn.Lp.C32_encoding",
    "Ndn.Lp.C32_roundtrip_partial",
    "Ndn.Lp.C32_lone_roundtrip_partial",
    "Ndn.Lp.C32_nested_counterexample",
    "Ndn.Lp.C32_encode_counterexample",
    "Ndn.Lp.C32_refines",
    "Ndn.Lp.C32_accessors",
    "Ndn.Lp.C32_set_counterexample"
   ],
   "note": "Refinement to a multimap and canonical order proved for all histories. The round trip fails for a packet whose only field is a fragment that is not exactly one Interest or Data (C32_nested_counterexample, C32_encode_counterexample; exact condition in C32_lone_roundtrip_partial); set() with a value that cannot be encoded loses the old value (C32_set_counterexample)."
  },
  {
   "property": "C33",
   "status": "proved",
   "theorems": [
    "Ndn.Lp.C33_decode",
    "Ndn.Lp.C33_bare",
    "Ndn.Lp.C33_failure",
    "Ndn.Lp.C33_reencode",
    "Ndn.Lp.C33_ignored",
    "Ndn.Lp.C33_field"
   ],
   "note": ""
  },
  {
   "property": "C34",
   "status": "partial",
   "theorems": [
    "Ndn.Lp.C34_strict_total",
    "Ndn.Lp.C34_order",
    "Ndn.Lp.C34_unknown_partial",
    "Ndn.Lp.C34_unknown_counterexample",
    "Ndn.Lp.C34_roundtrip",
    "Ndn.Lp.C34_absent",
    "Ndn.Lp.C34_pitToken"
   ],
   "note": "Strict total order proved for all codes. Codes of 2^31 and above make decoding throw instead of reading as NONE (C34_unknown_counterexample)."
  },
  {
   "property": "C35",
   "status": "proved",
   "theorems": [
    "Ndn.Sched.C35_correct",
    "Ndn.Sched.C35_not_early",
    "Ndn.Sched.C35_once",
    "Ndn.Sched.C35_cancelled",
    "Ndn.Sched.C35_cancelledAll",
    "Ndn.Sched.C35_handle",
    "Ndn.Sched.C35_firing",
    "Ndn.Sched.C35_progress",
    "Ndn.Sched.C35_drain",
    "Ndn.Sched.C35_exception",
    "Ndn.Sched.C35_schedule"
   ],
   "note": ""
  },
  {
   "property": "C36",
   "status": "partial",
   "theorems": [
    "Ndn.Signal.C36_emission_partial",
    "Ndn.Signal.C36_completed_partial",
    "Ndn.Signal.C36_isConnected_partial",
    "Ndn.Signal.C36_zombie_counterexample",
    "Ndn.Signal.C36_singleShot_counterexample",
    "Ndn.Signal.C36_singleShot_partial"
   ],
   "note": "Holds for all histories in which no handler throws after disconnecting itself (and nothing the documentation calls undefined is done). Otherwise the disconnected handler stays and is called again (C36_zombie_counterexample); a throwing single-shot handler runs again (C36_singleShot_counterexample)."
  },
  {
   "property": "C37",
   "status": "proved",
   "theorems": [
    "Ndn.Rtt.C37_bounds",
    "Ndn.Rtt.C37_initial",
    "Ndn.Rtt.C37_backoff",
    "Ndn.Rtt.C37_backoffs",
    "Ndn.Rtt.C37_measure",
    "Ndn.Rtt.C37_stats",
    "Ndn.Rtt.C37_defined"
   ],
   "note": "The floating-point moving averages are arbitrary functions; integer overflow is an explicit outcome, excluded by C37_defined under stated bounds."
  },
  {
   "property": "C38",
   "status": "proved",
   "theorems": [
    "Ndn.Segmenter.C38_segments",
    "Ndn.Segmenter.C38_chunks",
    "Ndn.Segmenter.C38_succeeds_iff",
    "Ndn.Segmenter.C38_stream",
    "Ndn.Segmenter.C38_numbers"
   ],
   "note": "Both overloads; key chain is a parameter."
  },
  {
   "property": "C39",
   "status": "partial",
   "theorems": [
    "Ndn.Fetch.C39_signals",
    "Ndn.Fetch.C39_arrived",
    "Ndn.Fetch.C39_accepted",
    "Ndn.Fetch.C39_inOrder_all",
    "Ndn.Fetch.C39_stop",
    "Ndn.Fetch.C39_object_partial",
    "Ndn.Fetch.C39_defined_partial",
    "Ndn.Fetch.C39_rejected",
    "Ndn.Fetch.C39_nacked",
    "Ndn.Fetch.C39_object_counterexample",
    "Ndn.Fetch.C39_revalidation_counterexample",
    "Ndn.Fetch.C39_finalBlock_counterexample",
    "Ndn.Fetch.C39_baseSegment_counterexample",
    "Ndn.Fetch.C39_handler_stop_counterexample",
    "Ndn.Fetch.C39_stop_counterexample"
   ],
   "note": "The signals are right in all executions (C39_signals, C39_inOrder_all, C39_stop; fewer than 2^63 signals). Segments of different objects can be mixed when the first Interest is answered after it was cancelled (C39_object_counterexample; C39_object_partial otherwise). Undefined behaviour is possible with asynchronous validation, inconsistent FinalBlockIds, an Interest ending in a segment number, and handlers that stop the fetcher (four counterexamples; C39_defined_partial otherwise). Completion is signalled although a handler stopped the fetcher (C39_stop_counterexample)."
  },
  {
   "property": "C40",
   "status": "partial",
   "theorems": [
    "Ndn.Hex.C40_decode_iff",
    "Ndn.Hex.C40_chunk_independent",
    "Ndn.Hex.C40_fail_iff",
    "Ndn.Hex.C40_roundtrip",
    "Ndn.Hex.C40_encode_chain",
    "Ndn.Hex.C40_strip_chain",
    "Ndn.Hex.C40_decode_chain_counterexample",
    "Ndn.Hex.C40_decode_chain_partial",
    "Ndn.Hex.C40_white_space"
   ],
   "note": "Hex codec: full, for any splitting into chunks. Chain of hexDecode and a slow consumer: false of the code (C40_decode_chain_counterexample)."
  },
  {
   "property": "C41",
   "status": "partial",
   "theorems": [
    "Ndn.Regex.C41_accepts",
    "Ndn.Regex.C41_rejects",
    "Ndn.Regex.C41_empty_counterexample",
    "Ndn.Regex.C41_sound",
    "Ndn.Regex.C41_exact_partial",
    "Ndn.Regex.C41_terminates_partial",
    "Ndn.Regex.C41_expand_partial",
    "Ndn.Regex.C41_expand_counterexample",
    "Ndn.Regex.C41_fromName",
    "Ndn.Regex.C41_escaping",
    "Ndn.Regex.C41_terminates_counterexample",
    "Ndn.Regex.C41_counterexample",
    "Ndn.Regex.C41_exact_counterexample",
    "Ndn.Regex.C41_captures_counterexample",
    "Ndn.Regex.C41_component_counterexample"
   ],
   "note": "Accepted texts, soundness of matches, expressions made from names: full. Exactness and termination fail for groups that match the empty name under a quantifier that demands or allows unboundedly many repetitions (C41_exact_counterexample, C41_terminates_counterexample), and hold otherwise. References are right for groups that took part in the match; others keep what an earlier attempt left (C41_captures_counterexample); groups in component expressions capture URI text (C41_component_counterexample); a template ending in a literal is refused (C41_expand_counterexample). std::regex is a parameter."
  },
  {
   "property": "C42",
   "status": "partial",
   "theorems": [
    "Ndn.Ims.C42_bound_partial",
    "Ndn.Ims.C42_small_limit_counterexample",
    "Ndn.Ims.C42_small_limit_overflow"
   ],
   "note": "Holds for limits of 16 and more, and for smaller positive limits as long as erase() is not called; otherwise erase() raises the capacity above the limit (C42_small_limit_counterexample, C42_small_limit_overflow)."
  },
  {
   "property": "C43",
   "status": "partial",
   "theorems": [
    "Ndn.Ims.C43_findName",
    "Ndn.Ims.C43_findInterest_partial",
    "Ndn.Ims.C43_exact_counterexample"
   ],
   "note": "find(Name): full. find(Interest): full except that an Interest carrying the full name of a stored packet gets it even if it is stale and MustBeFresh is set (C43_exact_counterexample)."
  },
  {
   "property": "C44",
   "status": "partial",
   "theorems": [
    "Ndn.Ims.C44_policy_partial",
    "Ndn.Ims.C44_exact_counterexample",
    "Ndn.Ims.C44_insert",
    "Ndn.Ims.C44_uses",
    "Ndn.Ims.C44_retrievable",
    "Ndn.Ims.C44_find_keeps"
   ],
   "note": "Specification automaton for all four policies. Retrieval by an Interest with the full name does not count as a use for LRU/LFU (C44_exact_counterexample)."
  },
  {
   "property": "C45",
   "status": "partial",
   "theorems": [
    "Ndn.Ims.C45_erase_full",
    "Ndn.Ims.C45_erase_prefix_partial",
    "Ndn.Ims.C45_erase_prefix_counterexample"
   ],
   "note": "Erasing by full name: full. Erasing by prefix: fails when the prefix is itself the full name of a stored packet (C45_erase_prefix_counterexample)."
  },
  {
   "property": "C46",
   "status": "proved",
   "theorems": [
    "Ndn.Ims.C46_fresh"
   ],
   "note": ""
  },
  {
   "property": "C47",
   "status": "partial",
   "theorems": [
    "Ndn.Face.C47_once",
    "Ndn.Face.C47_after_cancel_partial",
    "Ndn.Face.C47_after_clear",
    "Ndn.Face.C47_timeout",
    "Ndn.Face.C47_resolved",
    "Ndn.Face.C47_sends",
    "Ndn.Face.C47_sound",
    "Ndn.Face.C47_ids",
    "Ndn.Face.C47_cancel_counterexample",
    "Ndn.Face.C47_throw_counterexample",
    "Ndn.Face.C47_timeout_throw_counterexample"
   ],
   "note": "Holds for histories in which no callback throws, from the moment the posted cancel handler runs. A Data processed between the cancel() call and its handler still reaches the callback (C47_cancel_counterexample); a throwing Data callback is invoked again (C47_throw_counterexample); a throwing timeout callback leaves the Interest pending without a timer (C47_timeout_throw_counterexample). Soundness of the callbacks holds for all histories (C47_sound)."
  },
  {
   "property": "C48",
   "status": "partial",
   "theorems": [
    "Ndn.Face.C48_receive",
    "Ndn.Face.C48_put",
    "Ndn.Face.C48_delivery",
    "Ndn.Face.C48_throw_counterexample"
   ],
   "note": "Full for callbacks that do not throw, from any table content; fails when one throws (C48_throw_counterexample)."
  },
  {
   "property": "C49",
   "status": "partial",
   "theorems": [
    "Ndn.Face.C49_reported_partial",
    "Ndn.Face.C49_sent_partial",
    "Ndn.Face.C49_pending",
    "Ndn.Face.C49_put",
    "Ndn.Face.C49_repeat_counterexample",
    "Ndn.Face.C49_assert_counterexample"
   ],
   "note": "The number of Nacks received since the Interest was made reaches the number of destinations, and the reason is a least severe one of them. Nacks do not identify their source: two from one destination count as two (C49_repeat_counterexample). The assertion on the count is reachable (C49_assert_counterexample)."
  },
  {
   "property": "C50",
   "status": "partial",
   "theorems": [
    "Ndn.Face.C50_sound",
    "Ndn.Face.C50_received",
    "Ndn.Face.C50_expressed",
    "Ndn.Face.C50_oversized",
    "Ndn.Face.C50_unset_counterexample"
   ],
   "note": "Exact for histories without throwing callbacks, sound for all; \"unset\" is when the posted handler runs (C50_unset_counterexample)."
  },
  {
   "property": "C51",
   "status": "partial",
   "theorems": [
    "Ndn.Validator.C51_chain",
    "Ndn.Validator.C51_signature",
    "Ndn.Validator.C51_no_anchor",
    "Ndn.Validator.C51_complete",
    "Ndn.Validator.C51_current_counterexample",
    "Ndn.Validator.C51_current_fetched_counterexample",
    "Ndn.Validator.C51_current_partial",
    "Ndn.Validator.C51_reset_counterexample",
    "Ndn.Validator.C51_reset_partial"
   ],
   "note": "For every history, policy and network: full (C51_chain), with the converse for chains supplied by the network (C51_complete). Validity of fetched certificates is checked on receipt, that of anchors never (C51_current_counterexample, C51_current_fetched_counterexample); certificates verified with anchors since removed stay trusted for up to an hour (C51_reset_counterexample). Re-entrant calls from callbacks and asynchronous policies are not modelled."
  },
  {
   "property": "C52",
   "status": "partial",
   "theorems": [
    "Ndn.Validator.C52_one_outcome",
    "Ndn.Validator.C52_outcome_started",
    "Ndn.Validator.C52_requests",
    "Ndn.Validator.C52_no_loop",
    "Ndn.Validator.C52_retries",
    "Ndn.Validator.C52_answerable",
    "Ndn.Validator.C52_terminates",
    "Ndn.Validator.C52_answers_bounded",
    "Ndn.Validator.C52_throwing_counterexample",
    "Ndn.Validator.C52_exception_counterexample",
    "Ndn.Validator.C52_exception_partial",
    "Ndn.Validator.C52_no_fuel",
    "Ndn.Validator.C52_lifetime",
    "Ndn.Validator.C52_recent"
   ],
   "note": "Full for callbacks that do not throw: one outcome, at most D certificates, at most four Interests each, termination after at most 8*D answers. A throwing callback gives two outcomes (C52_throwing_counterexample); a certificate without a validity period makes an exception leave the event loop (C52_exception_counterexample)."
  },
  {
   "property": "C53",
   "status": "partial",
   "theorems": [
    "Ndn.Replay.C53_timestamps",
    "Ndn.Replay.C53_seqnums",
    "Ndn.Replay.C53_nonces",
    "Ndn.Replay.C53_required",
    "Ndn.Replay.C53_last",
    "Ndn.Replay.C53_recorded",
    "Ndn.Replay.C53_accepts",
    "Ndn.Replay.C53_overlap_counterexample",
    "Ndn.Replay.C53_rollback_counterexample",
    "Ndn.Replay.C53_v02_counterexample",
    "Ndn.Replay.C53_throw_counterexample",
    "Ndn.Replay.C53_defined_counterexample"
   ],
   "note": "Full for sequential validation of v0.3 Interests, for each of the three checks, with LRU eviction and the nonce window; completeness and the grace period hold for every schedule. Overlapping validations accept replays and move the record back (C53_overlap/rollback_counterexample); v0.2 Interests bypass the policy (C53_v02_counterexample); a throwing success callback leaves no record (C53_throw_counterexample); large SignatureTime values overflow (C53_defined_counterexample)."
  },
  {
   "property": "C54",
   "status": "partial",
   "theorems": [
    "Ndn.Replay.C54_increasing",
    "Ndn.Replay.C54_grace",
    "Ndn.Replay.C54_recorded",
    "Ndn.Replay.C54_accepts",
    "Ndn.Replay.C54_no_replay",
    "Ndn.Replay.C54_overlap_counterexample",
    "Ndn.Replay.C54_defined_counterexample"
   ],
   "note": "Full for sequential validation, including that no timestamp is accepted twice when the record lifetime exceeds twice the grace period; overlapping validations accept replays (C54_overlap_counterexample); large timestamps overflow (C54_defined_counterexample)."
  },
  {
   "property": "C55",
   "status": "partial",
   "theorems": [
    "Ndn.Cert.C55_sound",
    "Ndn.Cert.C55_sound_prefix",
    "Ndn.Cert.C55_complete",
    "Ndn.Cert.C55_complete_prefix",
    "Ndn.Cert.C55_exact",
    "Ndn.Cert.C55_inserted_counterexample",
    "Ndn.Cert.C55_extend_counterexample",
    "Ndn.Cert.C55_inserted_partial",
    "Ndn.Cert.C55_defined_counterexample"
   ],
   "note": "Soundness of look-ups: full, for every history and clock. Completeness: full for certificates whose insertion took effect; an insertion is ignored while a certificate of the same name is stored, even past its deadline (C55_inserted_counterexample, C55_extend_counterexample). The deadline overflows for extreme lifetimes (C55_defined_counterexample)."
  },
  {
   "property": "C56",
   "status": "partial",
   "theorems": [
    "Ndn.Cert.C56_isValid",
    "Ndn.Cert.C56_rounding",
    "Ndn.Cert.C56_whole_seconds",
    "Ndn.Cert.C56_default",
    "Ndn.Cert.C56_defined_counterexample",
    "Ndn.Cert.C56_defined_partial",
    "Ndn.Cert.C56_encoding",
    "Ndn.Cert.C56_roundtrip",
    "Ndn.Cert.C56_decode",
    "Ndn.Cert.C56_text_order",
    "Ndn.Cert.C56_accepted",
    "Ndn.Cert.C56_decode_fresh",
    "Ndn.Cert.C56_decode_defined_counterexample",
    "Ndn.Cert.C56_errors_counterexample",
    "Ndn.Cert.C56_history_counterexample",
    "Ndn.Cert.C56_history_partial",
    "Ndn.Cert.C56_equals"
   ],
   "note": "Validity test, inward rounding, calendar (against the rule for the next day), round trip and clamping: full for representable instants. Comparisons overflow within a second of the ends of the 64-bit range (C56_defined_counterexample); decoding overflows for hours above 23 (C56_decode_defined_counterexample), lets std::out_of_range escape for dates that do not exist (C56_errors_counterexample), and a failed decode leaves the refused octets as the encoding (C56_history_counterexample)."
  },
  {
   "property": "C57",
   "status": "partial",
   "theorems": [
    "Ndn.Pib.C57_sqlite_exact",
    "Ndn.Pib.C57_sqlite_defaults",
    "Ndn.Pib.C57_sqlite_remove_identity",
    "Ndn.Pib.C57_sqlite_remove_key",
    "Ndn.Pib.C57_sqlite_keep_identity",
    "Ndn.Pib.C57_sqlite_keep_key",
    "Ndn.Pib.C57_sqlite_keep_certificate",
    "Ndn.Pib.C57_memory_defaults",
    "Ndn.Pib.C57_memory_remove_identity",
    "Ndn.Pib.C57_memory_remove_key",
    "Ndn.Pib.C57_memory_keep_identity",
    "Ndn.Pib.C57_memory_keep_certificate",
    "Ndn.Pib.C57_memory_counterexample",
    "Ndn.Pib.C57_memory_default_lost_counterexample",
    "Ndn.Pib.C57_memory_exact_partial",
    "Ndn.Pib.C57_memory_foreign_key_counterexample",
    "Ndn.Pib.C57_sqlite_foreign_key_counterexample"
   ],
   "note": "Both back ends, for every sequence of calls with names the front end lets through. pib-sqlite3 (tables with their triggers and cascades): exact. pib-memory: defaults exist and belong to their parents, parents take their children with them, but removing a key that is not the default clears the default key (C57_memory_counterexample), hence C57_memory_exact_partial. SQLite itself and the TPM locator are not modelled."
  },
  {
   "property": "C58",
   "status": "proved",
   "theorems": [
    "Ndn.Replay.C58_increasing",
    "Ndn.Replay.C58_present",
    "Ndn.Replay.C58_seqnums"
   ],
   "note": "Full."
  },
  {
   "property": "C59",
   "status": "partial",
   "theorems": [
    "Ndn.Config.C59_load",
    "Ndn.Config.C59_anchors",
    "Ndn.Config.C59_decision_partial",
    "Ndn.Config.C59_terminates_partial",
    "Ndn.Config.C59_any",
    "Ndn.Config.C59_unmatched",
    "Ndn.Config.C59_history_partial",
    "Ndn.Config.C59_counterexample",
    "Ndn.Config.C59_history_counterexample",
    "Ndn.Config.C59_refused_counterexample",
    "Ndn.Config.C59_exception_counterexample",
    "Ndn.Config.C59_keyname_counterexample",
    "Ndn.Config.C59_ignored_counterexample",
    "Ndn.Config.C59_undefined_counterexample",
    "Ndn.Config.C59_terminates_counterexample",
    "Ndn.Config.C59_keywords",
    "Ndn.Config.C59_case"
   ],
   "note": "Accepted configurations and the decision on every packet are characterised exactly, for every earlier history. The code takes a rule when some of its filters matches, not all (C59_counterexample); answers can depend on packets checked before, through captures of hyper-relations (C59_history_counterexample); a refused configuration stays in force as far as it was read (C59_refused_counterexample); checks can throw or not end (C59_exception_counterexample, C59_terminates_counterexample); a key name demanded with relation equal is never satisfied (C59_keyname_counterexample); some unknown properties are ignored (C59_ignored_counterexample); three texts are undefined behaviour (C59_undefined_counterexample). std::regex is a parameter."
  },
  {
   "property": "C60",
   "status": "proved",
   "theorems": [
    "Ndn.Config.C60_relation",
    "Ndn.Config.C60_words",
    "Ndn.Config.C60_identity",
    "Ndn.Config.C60_identity_of",
    "Ndn.Config.C60_hierarchy",
    "Ndn.Config.C60_hierarchical",
    "Ndn.Config.C60_identities",
    "Ndn.Config.C60_hierarchies_differ"
   ],
   "note": "Full: relations, words, identities, simple hierarchy and the hierarchical checker are characterised exactly; C60_hierarchies_differ shows where the last two differ."
  },
  {
   "property": "C61",
   "status": "partial",
   "theorems": [
    "Ndn.Anchors.C61_sound",
    "Ndn.Anchors.C61_exact_partial",
    "Ndn.Anchors.C61_unique",
    "Ndn.Anchors.C61_find",
    "Ndn.Anchors.C61_groups",
    "Ndn.Anchors.C61_fresh",
    "Ndn.Anchors.C61_refused",
    "Ndn.Anchors.C61_defined_partial",
    "Ndn.Anchors.C61_defined_counterexample",
    "Ndn.Anchors.C61_counterexample",
    "Ndn.Anchors.C61_remove_counterexample",
    "Ndn.Anchors.C61_insert_counterexample",
    "Ndn.Anchors.C61_orphan_counterexample",
    "Ndn.Anchors.C61_renewed"
   ],
   "note": "For every history of calls, clock and file system: trusted certificates are listed and were given (C61_sound), groups list what their specification says, find is exact. The converse fails for names listed by several groups, because all share one set (C61_counterexample, C61_remove_counterexample, C61_insert_counterexample), and holds otherwise (C61_exact_partial). A group that cannot be created leaves certificates behind (C61_orphan_counterexample); the period of configurations without refresh overflows (C61_defined_counterexample). File contents and the clock are arguments of the calls."
  },
  {
   "property": "C62",
   "status": "partial",
   "theorems": [
    "Ndn.Mgmt.C62_decode",
    "Ndn.Mgmt.C62_roundtrip",
    "Ndn.Mgmt.C62_encode_element",
    "Ndn.Mgmt.C62_history",
    "Ndn.Mgmt.C62_setters",
    "Ndn.Mgmt.C62_present",
    "Ndn.Mgmt.C62_flag_bits_partial",
    "Ndn.Mgmt.C62_flag_bits_range",
    "Ndn.Mgmt.C62_bit31_counterexample",
    "Ndn.Mgmt.C62_bit31_get_counterexample",
    "Ndn.Mgmt.C62_bit32_counterexample",
    "Ndn.Mgmt.C62_flag_bits_counterexample"
   ],
   "note": "Decoding is characterised exactly, round trip for all field combinations, and after any history of setters, unsetters, encodings and decodings wireEncode gives the current fields. Flag bits: full for bits 0 to 30; bit 31 is sign-extended (C62_bit31_counterexample) and from bit 32 on the shift is undefined behaviour (C62_bit32_counterexample)."
  },
  {
   "property": "C63",
   "status": "proved",
   "theorems": [
    "Ndn.Mgmt.C63_format",
    "Ndn.Mgmt.C63_request",
    "Ndn.Mgmt.C63_response",
    "Ndn.Mgmt.C63_no_ub",
    "Ndn.Mgmt.C63_defaults",
    "Ndn.Mgmt.C63_defaults_valid",
    "Ndn.Mgmt.C63_request_roundtrip",
    "Ndn.Mgmt.C63_create",
    "Ndn.Mgmt.C63_names"
   ],
   "note": "Full for the eleven commands that take ControlParameters: acceptance of requests and responses, defaults, names, and parameters carried by the Interest. rib/announce takes a prefix announcement instead (see C70); its response is that of rib/register."
  },
  {
   "property": "C64",
   "status": "proved",
   "theorems": [
    "Ndn.Mgmt.C64_complete",
    "Ndn.Mgmt.C64_open",
    "Ndn.Mgmt.C64_rejected",
    "Ndn.Mgmt.C64_calls",
    "Ndn.Mgmt.C64_refused",
    "Ndn.Mgmt.C64_prefix",
    "Ndn.Mgmt.C64_version",
    "Ndn.Mgmt.C64_make"
   ],
   "note": "Full, for every sequence of calls by a handler (fewer than 2^64 bytes), with the result of every call."
  },
  {
   "property": "C65",
   "status": "proved",
   "theorems": [
    "Ndn.Mgmt.C65_tops",
    "Ndn.Mgmt.C65_handlers",
    "Ndn.Mgmt.C65_unique",
    "Ndn.Mgmt.C65_register"
   ],
   "note": "Full, for every history of registrations and removals."
  },
  {
   "property": "C66",
   "status": "partial",
   "theorems": [
    "Ndn.Transport.C66_unique",
    "Ndn.Transport.C66_framing_partial",
    "Ndn.Transport.C66_packets_partial",
    "Ndn.Transport.C66_all_partial",
    "Ndn.Transport.C66_no_error_partial",
    "Ndn.Transport.C66_oversize_partial",
    "Ndn.Transport.C66_counterexample",
    "Ndn.Transport.C66_double_read"
   ],
   "note": "Proved for every history without pause: any division into reads, with completions and other calls interleaved (C66_framing_partial, C66_packets_partial, C66_all_partial), no spurious error (C66_no_error_partial), and an element that does not fit closes the transport (C66_oversize_partial). False with pause/resume: resume drops a partly received packet (C66_counterexample), and a read that completed before pause leads to two reads into one buffer (C66_double_read)."
  },
  {
   "property": "C67",
   "status": "partial",
   "theorems": [
    "Ndn.Transport.C67_order",
    "Ndn.Transport.C67_progress_partial",
    "Ndn.Transport.C67_stall_forever",
    "Ndn.Transport.C67_counterexample"
   ],
   "note": "Order and exactly-once for every history (C67_order). Progress proved when pause is called only with nothing left to send (C67_progress_partial); a pause during a write stops all sending for ever (C67_stall_forever, C67_counterexample)."
  },
  {
   "property": "C68",
   "status": "partial",
   "theorems": [
    "Ndn.Notify.C68_next",
    "Ndn.Notify.C68_next_plain",
    "Ndn.Notify.C68_next_unheard",
    "Ndn.Notify.C68_fallback",
    "Ndn.Notify.C68_after_backoff",
    "Ndn.Notify.C68_requests",
    "Ndn.Notify.C68_never_idle",
    "Ndn.Notify.C68_stop",
    "Ndn.Notify.C68_backoff_partial",
    "Ndn.Notify.C68_backoff_doubles",
    "Ndn.Notify.C68_nack_partial",
    "Ndn.Notify.C68_start",
    "Ndn.Notify.C68_start_running",
    "Ndn.Notify.C68_timer_counterexample",
    "Ndn.Notify.C68_timer_partial",
    "Ndn.Notify.C68_backoff_counterexample",
    "Ndn.Notify.C68_backoff_mixed",
    "Ndn.Notify.C68_delay_partial",
    "Ndn.Notify.C68_delay_counterexample"
   ],
   "note": "Full for every history for: n then n+1 (C68_next, C68_requests), falling back (C68_fallback, C68_after_backoff), stop (C68_stop), never idle (C68_never_idle), doubling (C68_backoff_doubles). False of the code: stop does not cancel the back-off timer, so after a restart it replaces the Interest for the next notification (C68_timer_counterexample); the back-off is never reset and overflows the scheduler clock on the 37th Nack in a row (C68_delay_counterexample); number 2^64-1 starts at 400 ms (C68_backoff_counterexample)."
  },
  {
   "property": "C69",
   "status": "partial",
   "theorems": [
    "Ndn.Object.C69_decode_exact",
    "Ndn.Object.C69_add",
    "Ndn.Object.C69_remove",
    "Ndn.Object.C69_nodup",
    "Ndn.Object.C69_roundtrip_partial",
    "Ndn.Object.C69_content",
    "Ndn.Object.C69_default_counterexample",
    "Ndn.Object.C69_failed_decode_counterexample",
    "Ndn.Object.C69_decode_partial"
   ],
   "note": "Full for editing (C69_add, C69_remove, C69_nodup) and decoding (C69_decode_exact). Round trip for every history of a Link made from a name or a packet (C69_roundtrip_partial, C69_content); false for a default-constructed Link without delegations, which is encoded as an ordinary Data packet (C69_default_counterexample); after a failed wireDecode the delegations are not those of the packet (C69_failed_decode_counterexample)."
  },
  {
   "property": "C70",
   "status": "partial",
   "theorems": [
    "Ndn.Object.C70_announcement_exact",
    "Ndn.Object.C70_announcement_unique",
    "Ndn.Object.C70_announcement_roundtrip",
    "Ndn.Object.C70_toData",
    "Ndn.Object.C70_setters",
    "Ndn.Object.C70_expiration_counterexample",
    "Ndn.Object.C70_expiration_partial",
    "Ndn.Object.C70_exception_counterexample",
    "Ndn.Object.C70_exception_partial",
    "Ndn.Object.C70_signed_counterexample",
    "Ndn.Object.C70_signed_partial",
    "Ndn.Object.C70_metadata_exact",
    "Ndn.Object.C70_metadata_make",
    "Ndn.Object.C70_metadata_make_returns",
    "Ndn.Object.C70_discovery"
   ],
   "note": "Acceptance and round trip are full for every history (C70_announcement_exact, C70_announcement_roundtrip, C70_metadata_exact, C70_metadata_make, C70_discovery). False of the code: an expiration period of 2^63 ms or more becomes negative (C70_expiration_counterexample); an impossible date in the validity period throws std::out_of_range instead of tlv::Error (C70_exception_counterexample); when signing throws, the unsigned packet is kept and returned by the next toData (C70_signed_counterexample)."
  },
  {
   "property": "C71",
   "status": "partial",
   "theorems": [
    "Ndn.Block.C71_equals_encoded_partial",
    "Ndn.Block.C71_size_made",
    "Ndn.Block.C71_size_encoded_partial",
    "Ndn.Block.C71_counterexample"
   ],
   "note": "Holds once encode() has been called; false before (C71_counterexample)."
  },
  {
   "property": "C72",
   "status": "partial",
   "theorems": [
    "Ndn.Name.C72_counterexample",
    "Ndn.Name.C72_decode_partial"
   ],
   "note": "No validation happens on decoding a name (C72_counterexample); what is accepted is characterised exactly by C72_decode_partial."
  },
  {
   "property": "C73",
   "status": "partial",
   "theorems": [
    "Ndn.Interest.C73_stale_counterexample",
    "Ndn.Interest.C73_coherent_partial"
   ],
   "note": "Holds along histories without exceptions; after an exception in wireEncode()/wireDecode() the refused octets are returned (C73_stale_counterexample)."
  },
  {
   "property": "C74",
   "status": "partial",
   "theorems": [
    "Ndn.Interest.C74_setSignatureInfo_counterexample",
    "Ndn.Interest.C74_others_partial"
   ],
   "note": "Fails for setSignatureInfo only (C74_setSignatureInfo_counterexample)."
  },
  {
   "property": "C75",
   "status": "partial",
   "theorems": [
    "Ndn.Interest.C75_trailing_counterexample",
    "Ndn.Interest.C75_sign_partial"
   ],
   "note": "Fails when a parameter follows the SignatureInfo and there is no signature value yet (C75_trailing_counterexample)."
  },
  {
   "property": "C76",
   "status": "partial",
   "theorems": [
    "Ndn.Interest.C76_repeated_counterexample",
    "Ndn.Interest.C76_covers_partial"
   ],
   "note": "Fails for repeated ApplicationParameters or late HopLimit elements (C76_repeated_counterexample)."
  },
  {
   "property": "C77",
   "status": "proved",
   "theorems": [
    "Ndn.Interest.C77_plain",
    "Ndn.Interest.C77_lifetime_negative",
    "Ndn.Interest.C77_nonce",
    "Ndn.Interest.C77_params",
    "Ndn.Interest.C77_sigInfo",
    "Ndn.Interest.C77_sigValue",
    "Ndn.Interest.C77_matchesInterest",
    "Ndn.Interest.C77_lifetime"
   ],
   "note": ""
  },
  {
   "property": "C78",
   "status": "partial",
   "theorems": [
    "Ndn.Ims.C78_iterate_partial",
    "Ndn.Ims.C78_empty_counterexample"
   ],
   "note": "Fails on an empty storage: begin() dereferences the end iterator (C78_empty_counterexample)."
  },
  {
   "property": "C79",
   "status": "partial",
   "theorems": [
    "Ndn.Fetch.C79_no_hang_partial",
    "Ndn.Fetch.C79_inOrder_counterexample"
   ],
   "note": "Holds in the block mode with a validator answering at once (C79_no_hang_partial). In the in-order mode the fetcher can hang (C79_inOrder_counterexample)."
  },
  {
   "property": "C80",
   "status": "partial",
   "theorems": [
    "Ndn.Face.C80_register_once",
    "Ndn.Face.C80_unregister_once",
    "Ndn.Face.C80_reply",
    "Ndn.Face.C80_unregister",
    "Ndn.Face.C80_early_counterexample",
    "Ndn.Face.C80_shutdown_counterexample"
   ],
   "note": "Callback counts and activation proved for all histories. Unregistering before the registration is answered fails and the prefix becomes active afterwards (C80_early_counterexample); shutdown forgets registrations but leaves their filters active (C80_shutdown_counterexample)."
  },
  {
   "property": "C81",
   "status": "partial",
   "theorems": [
    "Ndn.Pib.C81_sqlite_partial",
    "Ndn.Pib.C81_memory_partial",
    "Ndn.Pib.C81_step_no_ub",
    "Ndn.Pib.C81_sqlite_no_assertion_partial",
    "Ndn.Pib.C81_memory_no_assertion_partial",
    "Ndn.Pib.C81_expired",
    "Ndn.Pib.C81_expired_refused",
    "Ndn.Pib.C81_one_handle",
    "Ndn.Pib.C81_wrong_key_counterexample",
    "Ndn.Pib.C81_bits_overwritten_counterexample",
    "Ndn.Pib.C81_sqlite_counterexample",
    "Ndn.Pib.C81_stale_default_counterexample",
    "Ndn.Pib.C81_memory_default_key_counterexample",
    "Ndn.Pib.C81_memory_counterexample",
    "Ndn.Pib.C81_add_existing_counterexample"
   ],
   "note": "Proved for every sequence of calls over both back ends, as long as a certificate given to setDefaultCertificate has the public key of the key, no certificate replaces the default one under its name and, with pib-memory, only default keys are removed. Counterexamples: setDefaultCertificate does not check the public key and overwrites the stored one; a replaced default certificate is still answered from the cache; pib-memory loses the default key when another key is removed and an assertion then fails; addIdentity of an existing identity does not make it the default."
  },
  {
   "property": "C82",
   "status": "partial",
   "theorems": [
    "Ndn.Mgmt.C82_processing",
    "Ndn.Mgmt.C82_authorized",
    "Ndn.Mgmt.C82_memory_counterexample",
    "Ndn.Mgmt.C82_memory_partial",
    "Ndn.Mgmt.C82_memory_elsewhere"
   ],
   "note": "Proved for every history of events: each observation is determined by the past as documented (C82_processing), and no command handler runs without an accepted authorization of the same request (C82_authorized). An Interest named exactly as an old-style command makes the dispatcher read past the end of the name (C82_memory_counterexample); this is the only such case (C82_memory_partial, C82_memory_elsewhere). Storage look-ups are arguments of the events; signing is left out; the global component conventions are taken to be consistent."
  },
  {
   "property": "C83",
   "status": "partial",
   "theorems": [
    "Ndn.Mgmt.C83_consecutive_partial",
    "Ndn.Mgmt.C83_register_first",
    "Ndn.Mgmt.C83_counterexample"
   ],
   "note": "Registering a stream under the full name of one that was used resets its numbers (C83_counterexample); otherwise full (C83_consecutive_partial), in particular when streams are registered before anything is posted (C83_register_first)."
  },
  {
   "property": "C84",
   "status": "partial",
   "theorems": [
    "Ndn.Transport.C84_close_partial",
    "Ndn.Transport.C84_close_read",
    "Ndn.Transport.C84_close_resolving",
    "Ndn.Transport.C84_close_connected",
    "Ndn.Transport.C84_close_counterexample",
    "Ndn.Transport.C84_pause_partial",
    "Ndn.Transport.C84_pause_counterexample",
    "Ndn.Transport.C84_resume",
    "Ndn.Transport.C84_connect",
    "Ndn.Transport.C84_noop"
   ],
   "note": "False as stated: completions that race with close or pause are still acted upon, up to a null pointer dereference, and a connection being resolved is established after close (C84_close_counterexample, C84_close_read, C84_close_resolving, C84_close_connected, C84_pause_counterexample). Proved when no completed operation is waiting for its handler (C84_close_partial, C84_pause_partial)."
  },
  {
   "property": "C85",
   "status": "partial",
   "theorems": [
    "Ndn.Nfd.C85_decode",
    "Ndn.Nfd.C85_roundtrip",
    "Ndn.Nfd.C85_history",
    "Ndn.Nfd.C85_setters",
    "Ndn.Nfd.C85_failed_counterexample",
    "Ndn.Nfd.C85_failed_partial"
   ],
   "note": "Full for decoding, round trip, setters and every history with successful decodings. After a failed decode the object caches the rejected element and encodes it (C85_failed_counterexample), except when the element is of another type (C85_failed_partial)."
  },
  {
   "property": "C86",
   "status": "partial",
   "theorems": [
    "Ndn.Nfd.C86_channel_decode",
    "Ndn.Nfd.C86_channel_roundtrip",
    "Ndn.Nfd.C86_channel_history",
    "Ndn.Nfd.C86_channel_setters",
    "Ndn.Nfd.C86_cs_decode",
    "Ndn.Nfd.C86_cs_roundtrip",
    "Ndn.Nfd.C86_cs_history",
    "Ndn.Nfd.C86_cs_setters",
    "Ndn.Nfd.C86_face_event_decode",
    "Ndn.Nfd.C86_face_event_roundtrip",
    "Ndn.Nfd.C86_face_event_history",
    "Ndn.Nfd.C86_face_event_setters",
    "Ndn.Nfd.C86_face_status_decode",
    "Ndn.Nfd.C86_face_status_roundtrip",
    "Ndn.Nfd.C86_face_status_history",
    "Ndn.Nfd.C86_face_status_setters",
    "Ndn.Nfd.C86_next_hop_decode",
    "Ndn.Nfd.C86_next_hop_roundtrip",
    "Ndn.Nfd.C86_next_hop_history",
    "Ndn.Nfd.C86_next_hop_setters",
    "Ndn.Nfd.C86_fib_decode",
    "Ndn.Nfd.C86_fib_roundtrip",
    "Ndn.Nfd.C86_fib_history",
    "Ndn.Nfd.C86_fib_setters",
    "Ndn.Nfd.C86_route_decode",
    "Ndn.Nfd.C86_route_roundtrip",
    "Ndn.Nfd.C86_route_history",
    "Ndn.Nfd.C86_route_setters",
    "Ndn.Nfd.C86_rib_decode",
    "Ndn.Nfd.C86_rib_roundtrip",
    "Ndn.Nfd.C86_rib_history",
    "Ndn.Nfd.C86_rib_setters",
    "Ndn.Nfd.C86_choice_decode",
    "Ndn.Nfd.C86_choice_roundtrip",
    "Ndn.Nfd.C86_choice_history",
    "Ndn.Nfd.C86_choice_setters",
    "Ndn.Nfd.C86_forwarder_decode",
    "Ndn.Nfd.C86_forwarder_roundtrip_partial",
    "Ndn.Nfd.C86_forwarder_roundtrip_counterexample",
    "Ndn.Nfd.C86_forwarder_history",
    "Ndn.Nfd.C86_forwarder_setters",
    "Ndn.Nfd.C86_failed_counterexample",
    "Ndn.Nfd.C86_forwarder_decode_counterexample",
    "Ndn.Nfd.C86_forwarder_decode_partial"
   ],
   "note": "Full for decoding, round trip, setters and every history with successful decodings, for all ten items. False of the code: a failed decode leaves half-assigned fields and caches the rejected element (C86_failed_counterexample); forwarder time stamps are truncated to milliseconds (C86_forwarder_roundtrip_counterexample) and large ones overflow (C86_forwarder_decode_counterexample); both partial theorems say exactly when not."
  },
  {
   "property": "C87",
   "status": "partial",
   "theorems": [
    "Ndn.Nfd.C87_decode",
    "Ndn.Nfd.C87_roundtrip",
    "Ndn.Nfd.C87_history",
    "Ndn.Nfd.C87_setters",
    "Ndn.Nfd.C87_reflected_counterexample",
    "Ndn.Nfd.C87_reflected_partial",
    "Ndn.Nfd.C87_empty"
   ],
   "note": "Full except that a restriction placed out of order in an accepted element is silently lost (C87_reflected_counterexample); elements in the published order are reflected completely (C87_reflected_partial)."
  },
  {
   "property": "C88",
   "status": "partial",
   "theorems": [
    "Ndn.Nfd.C88_parse",
    "Ndn.Nfd.C88_roundtrip",
    "Ndn.Nfd.C88_error_counterexample",
    "Ndn.Nfd.C88_error_partial",
    "Ndn.Nfd.C88_query",
    "Ndn.Nfd.C88_names"
   ],
   "note": "Full except that an empty payload for cs/info throws std::invalid_argument (C88_error_counterexample); every other payload that is not a dataset throws tlv::Error (C88_error_partial)."
  },
  {
   "property": "C89",
   "status": "proved",
   "theorems": [
    "Ndn.Nfd.C89_fib",
    "Ndn.Nfd.C89_rib",
    "Ndn.Nfd.C89_fib_equivalence",
    "Ndn.Nfd.C89_rib_equivalence"
   ],
   "note": "Full."
  },
  {
   "property": "C90",
   "status": "partial",
   "theorems": [
    "Ndn.Nfd.C90_bits_counterexample",
    "Ndn.Nfd.C90_bits_undefined",
    "Ndn.Nfd.C90_bits_partial",
    "Ndn.Nfd.C90_bits_range"
   ],
   "note": "False for bits 31 to 63, where the mask is computed with a 32-bit shift (C90_bits_counterexample, C90_bits_undefined); full for bits below 31 (C90_bits_partial) and above 63 (C90_bits_range)."
  },
  {
   "property": "C91",
   "status": "partial",
   "theorems": [
    "Ndn.Nfd.C91_processing",
    "Ndn.Nfd.C91_once",
    "Ndn.Nfd.C91_success",
    "Ndn.Nfd.C91_understood",
    "Ndn.Nfd.C91_defined_counterexample",
    "Ndn.Nfd.C91_callback_counterexample",
    "Ndn.Nfd.C91_defined_partial",
    "Ndn.Nfd.C91_reported_counterexample",
    "Ndn.Nfd.C91_reported_partial"
   ],
   "note": "Proved for every history: each observation is determined by the past as documented (C91_processing), at most one outcome (C91_once), success only for a validated answer that reports it (C91_success, C91_understood). False of the code: a command whose Data arrives after the Controller was destroyed, or a dataset callback that destroys it, is undefined behaviour (C91_defined_counterexample, C91_callback_counterexample); an empty cs/info payload calls neither callback (C91_reported_counterexample). The partial theorems cover everything else."
  },
  {
   "property": "C92",
   "status": "partial",
   "theorems": [
    "Ndn.KeyChain.C92_read",
    "Ndn.KeyChain.C92_roundtrip_partial",
    "Ndn.KeyChain.C92_hmac_counterexample",
    "Ndn.KeyChain.C92_digest_counterexample"
   ],
   "note": "Reading is full (C92_read). Round trip except for HMAC, which is printed as an identity (C92_hmac_counterexample), the identity called /localhost/identity/digest-sha256 (C92_digest_counterexample), and names that do not survive the alternate URI format (see C14)."
  },
  {
   "property": "C93",
   "status": "partial",
   "theorems": [
    "Ndn.KeyChain.C93_sqlite_partial",
    "Ndn.KeyChain.C93_memory_partial",
    "Ndn.KeyChain.C93_signer_unique",
    "Ndn.KeyChain.C93_cert_counterexample",
    "Ndn.KeyChain.C93_locator_counterexample",
    "Ndn.KeyChain.C93_name_counterexample",
    "Ndn.KeyChain.C93_algorithm_counterexample",
    "Ndn.KeyChain.C93_null_key_counterexample"
   ],
   "note": "Proved for every history within KFits (the calls C94 needs), for any crypto operations whose signatures verify. Contrary to the documentation: a certificate that does not exist is accepted (C93_cert_counterexample), a KeyLocator given is not overwritten (C93_locator_counterexample), a name of no key gives std::invalid_argument (C93_name_counterexample), another digest algorithm is still labelled Sha256With... (C93_algorithm_counterexample), SigningInfo(HMAC, name) uses a null pointer (C93_null_key_counterexample)."
  },
  {
   "property": "C94",
   "status": "partial",
   "theorems": [
    "Ndn.KeyChain.C94_sqlite_partial",
    "Ndn.KeyChain.C94_memory_partial",
    "Ndn.KeyChain.C94_create_again",
    "Ndn.KeyChain.C94_create_ready",
    "Ndn.KeyChain.C94_create_key",
    "Ndn.KeyChain.C94_delete_identity",
    "Ndn.KeyChain.C94_delete_key",
    "Ndn.KeyChain.C94_import",
    "Ndn.KeyChain.C94_sqlite_counterexample",
    "Ndn.KeyChain.C94_memory_counterexample",
    "Ndn.KeyChain.C94_hmac_overwrites_counterexample",
    "Ndn.KeyChain.C94_hmac_orphan_counterexample"
   ],
   "note": "Proved for every history of the calls within KFits, over both back ends. Ruled out: setDefaultCertificate with a certificate of another public key, which replaces the public key stored (C94_sqlite_counterexample, C94_memory_counterexample); createHmacKey or createKey whose digest-made name is in use in the TPM, which replaces that private key (C94_hmac_overwrites_counterexample). createKey with HMAC parameters throws and leaves a key in the TPM (C94_hmac_orphan_counterexample)."
  },
  {
   "property": "C95",
   "status": "partial",
   "theorems": [
    "Ndn.KeyChain.C95_sqlite_partial",
    "Ndn.KeyChain.C95_memory_partial",
    "Ndn.KeyChain.C95_sqlite_counterexample"
   ],
   "note": "Proved for all calls but deleteIdentity, which deletes the private keys before the PIB entry (C95_sqlite_counterexample). Each access to a store is taken as atomic."
  },
  {
   "property": "C96",
   "status": "partial",
   "theorems": [
    "Ndn.KeyChain.C96_sqlite_partial",
    "Ndn.KeyChain.C96_memory_partial",
    "Ndn.KeyChain.C96_self_signed"
   ],
   "note": "Proved for every history within KFits."
  },
  {
   "property": "C97",
   "status": "partial",
   "theorems": [
    "Ndn.Net.C97_parse",
    "Ndn.Net.C97_unique",
    "Ndn.Net.C97_text",
    "Ndn.Net.C97_roundtrip",
    "Ndn.Net.C97_injective",
    "Ndn.Net.C97_ether",
    "Ndn.Net.C97_fd",
    "Ndn.Net.C97_dev_partial",
    "Ndn.Net.C97_dev_counterexample",
    "Ndn.Net.C97_udpdev_partial",
    "Ndn.Net.C97_unix_partial",
    "Ndn.Net.C97_unix_counterexample",
    "Ndn.Net.C97_endpoint_partial",
    "Ndn.Net.C97_udp_tcp_partial",
    "Ndn.Net.C97_endpoint_counterexample"
   ],
   "note": "Reading is full (C97_parse, C97_unique) and so is the round trip of everything that was read (C97_roundtrip, C97_injective) and of Ethernet addresses and file descriptors. False of the code: an interface called e:1 reads back as interface e and port 1 (C97_dev_counterexample), a relative path does not read back (C97_unix_counterexample), IPv4-mapped endpoints do not read back (C97_endpoint_counterexample); the partial theorems say exactly for which values it works."
  },
  {
   "property": "C98",
   "status": "proved",
   "theorems": [
    "Ndn.Net.C98_eq",
    "Ndn.Net.C98_irrefl",
    "Ndn.Net.C98_trans",
    "Ndn.Net.C98_trichotomy"
   ],
   "note": "Full."
  },
  {
   "property": "C99",
   "status": "partial",
   "theorems": [
    "Ndn.Net.C99_read",
    "Ndn.Net.C99_roundtrip",
    "Ndn.Net.C99_injective",
    "Ndn.Net.C99_kinds",
    "Ndn.Net.C99_only_counterexample",
    "Ndn.Net.C99_only_partial"
   ],
   "note": "Round trip and injectivity full, for both readings of 0x by the C library. Other texts are accepted too, with blanks and signs (C99_only_counterexample); whatever is accepted has six numbers below 256 in hexadecimal (C99_only_partial)."
  },
  {
   "property": "C100",
   "status": "partial",
   "theorems": [
    "Ndn.Net.C100_schemes",
    "Ndn.Net.C100_other",
    "Ndn.Net.C100_form",
    "Ndn.Net.C100_form_conv",
    "Ndn.Net.C100_address_partial",
    "Ndn.Net.C100_same",
    "Ndn.Net.C100_unique_counterexample",
    "Ndn.Net.C100_unique_partial",
    "Ndn.Net.C100_fixed_counterexample",
    "Ndn.Net.C100_fixed_partial",
    "Ndn.Net.C100_ether",
    "Ndn.Net.C100_dev",
    "Ndn.Net.C100_result_counterexample",
    "Ndn.Net.C100_result_partial",
    "Ndn.Net.C100_udpdev",
    "Ndn.Net.C100_resolve_partial"
   ],
   "note": "False of the code: a link-local address without zone fails an assertion (C100_result_counterexample); the null Ethernet address and a bracketed interface are canonical but not fixed (C100_fixed_counterexample); ports 1, 01 and 99999 are all canonical (C100_unique_counterexample). Proved for everything else, over any IP library that reads back what it prints."
  },
  {
   "property": "C101",
   "status": "partial",
   "theorems": [
    "Ndn.Net.C101_dns",
    "Ndn.Net.C101_once_counterexample",
    "Ndn.Net.C101_once_partial",
    "Ndn.Net.C101_progress"
   ],
   "note": "False of the code: a timeout that expires while the finished resolution waits to be delivered leads to both callbacks (C101_once_counterexample; the header of dns.hpp warns of it). At most two, the first being the timeout (C101_dns); at most one otherwise (C101_once_partial); at least one (C101_progress)."
  },
  {
   "property": "C102",
   "status": "partial",
   "theorems": [
    "Ndn.Bag.C102_decode",
    "Ndn.Bag.C102_set",
    "Ndn.Bag.C102_iteration",
    "Ndn.Bag.C102_roundtrip",
    "Ndn.Bag.C102_current_counterexample",
    "Ndn.Bag.C102_current_partial",
    "Ndn.Bag.C102_failed_counterexample"
   ],
   "note": "Decoding, iteration and set are full. False of the code: set does not discard the cached encoding (C102_current_counterexample), and a refused element stays as the encoding (C102_failed_counterexample). C102_current_partial: nothing is set once there is an encoding."
  },
  {
   "property": "C103",
   "status": "partial",
   "theorems": [
    "Ndn.Bag.C103_decode",
    "Ndn.Bag.C103_roundtrip",
    "Ndn.Bag.C103_octets_counterexample",
    "Ndn.Bag.C103_octets_partial"
   ],
   "note": "Decoding and round trip full. The bag encodes the certificate from its members, which drops elements that are to be ignored, so its signature no longer verifies (C103_octets_counterexample); C103_octets_partial: certificates whose octets are the encoding of their members."
  },
  {
   "property": "C104",
   "status": "proved",
   "theorems": [
    "Ndn.Bag.C104_accept",
    "Ndn.Bag.C104_parts",
    "Ndn.Bag.C104_refuse",
    "Ndn.Bag.C104_unique",
    "Ndn.Bag.C104_extension"
   ],
   "note": "Full; the validity period is C56."
  },
  {
   "property": "C105",
   "status": "partial",
   "theorems": [
    "Ndn.KeyChain.C105_export",
    "Ndn.KeyChain.C105_sqlite_partial",
    "Ndn.KeyChain.C105_memory_partial",
    "Ndn.KeyChain.C105_counterexample"
   ],
   "note": "Proved for every pair of histories within KFits over both back ends, for private keys that can be written and read back. A certificate for another public key, made default, can be exported but not imported (C105_counterexample). The bag is a pair here; its octets are C103."
  },
  {
   "property": "C106",
   "status": "partial",
   "theorems": [
    "Ndn.Logging.C106_existing",
    "Ndn.Logging.C106_level_counterexample",
    "Ndn.Logging.C106_level_partial",
    "Ndn.Logging.C106_name",
    "Ndn.Logging.C106_names",
    "Ndn.Logging.C106_enabled"
   ],
   "note": "C106_existing is full for loggers that exist. The whole history: false for patterns such as a* that do not end at a dot (C106_level_counterexample: a logger created later does not get the level); C106_level_partial: the patterns of the documentation."
  },
  {
   "property": "C107",
   "status": "partial",
   "theorems": [
    "Ndn.Logging.C107_levels",
    "Ndn.Logging.C107_config",
    "Ndn.Logging.C107_unique",
    "Ndn.Logging.C107_refused_counterexample",
    "Ndn.Logging.C107_refused_partial"
   ],
   "note": "Reading is full. A refused text keeps the pairs before the first malformed one (C107_refused_counterexample; C107_refused_partial says exactly which)."
  },
  {
   "property": "C108",
   "status": "partial",
   "theorems": [
    "Ndn.Fetcher.C108_once",
    "Ndn.Fetcher.C108_match",
    "Ndn.Fetcher.C108_bound",
    "Ndn.Fetcher.C108_ends",
    "Ndn.Fetcher.C108_defined_counterexample",
    "Ndn.Fetcher.C108_defined_partial",
    "Ndn.Fetcher.C108_kept"
   ],
   "note": "C108_once, C108_match, C108_bound and C108_ends are full. False of the code: a bundle segment without the certificate asked for leads to a null pointer (C108_defined_counterexample); C108_defined_partial: a segment that has it continues the validation."
  },
  {
   "property": "C109",
   "status": "partial",
   "theorems": [
    "Ndn.Fetcher.C109_name",
    "Ndn.Fetcher.C109_shared",
    "Ndn.Fetcher.C109_first",
    "Ndn.Fetcher.C109_final",
    "Ndn.Fetcher.C109_next_counterexample",
    "Ndn.Fetcher.C109_next_partial",
    "Ndn.Fetcher.C109_progress"
   ],
   "note": "Names and FinalBlockId full. The segment after 255, 65535 and 4294967295 is asked for under a wrong component (C109_next_counterexample); C109_next_partial: all others."
  },
  {
   "property": "C110",
   "status": "proved",
   "theorems": [
    "Ndn.Fetcher.C110_interests",
    "Ndn.Fetcher.C110_both",
    "Ndn.Fetcher.C110_waits",
    "Ndn.Fetcher.C110_nacks",
    "Ndn.Fetcher.C110_timeouts"
   ],
   "note": "Full."
  },
  {
   "property": "C111",
   "status": "proved",
   "theorems": [
    "Ndn.Pipe.C111_buffers",
    "Ndn.Pipe.C111_errors",
    "Ndn.Pipe.C111_division",
    "Ndn.Pipe.C111_stream",
    "Ndn.Pipe.C111_broken"
   ],
   "note": "Full, for modules that take what is written to them; OpenSSL is a parameter. A downstream that takes only part of a write is C40."
  },
  {
   "property": "C112",
   "status": "proved",
   "theorems": [
    "Ndn.Pipe.C112_history",
    "Ndn.Pipe.C112_refused"
   ],
   "note": "Full."
  },
  {
   "property": "C113",
   "status": "partial",
   "theorems": [
    "Ndn.Pipe.C113_public",
    "Ndn.Pipe.C113_hmac_counterexample",
    "Ndn.Pipe.C113_empty",
    "Ndn.Pipe.C113_hmac_accepted",
    "Ndn.Pipe.C113_hmac_partial",
    "Ndn.Pipe.C113_digest"
   ],
   "note": "Public keys and digests full. With an HMAC key only as many octets are compared as both have: an empty signature verifies everything (C113_hmac_counterexample, C113_empty; C113_hmac_accepted says exactly what is accepted). C113_hmac_partial: signatures of the length of the HMAC."
  },
  {
   "property": "C114",
   "status": "proved",
   "theorems": [
    "Ndn.Pipe.C114_refines",
    "Ndn.Pipe.C114_pieces"
   ],
   "note": "Full."
  },
  {
   "property": "C115",
   "status": "proved",
   "theorems": [
    "Ndn.Pipe.Rfc.C115_base64",
    "Ndn.Pipe.C115_roundtrip",
    "Ndn.Pipe.C115_hex",
    "Ndn.Pipe.C115_none",
    "Ndn.Pipe.C115_lines",
    "Ndn.Pipe.C115_injective",
    "Ndn.Pipe.C115_broken"
   ],
   "note": "Full; what is asked of base64 is proved of base64 as in RFC 4648 (C115_base64)."
  },
  {
   "property": "C116",
   "status": "proved",
   "theorems": [
    "Ndn.Verify.C116_data",
    "Ndn.Verify.C116_parts_unique",
    "Ndn.Verify.C116_no_key",
    "Ndn.Verify.C116_digest",
    "Ndn.Verify.C116_certificate",
    "Ndn.Verify.C116_sign",
    "Ndn.Verify.C116_authentic"
   ],
   "note": "Full; keys are as in C113."
  },
  {
   "property": "C117",
   "status": "partial",
   "theorems": [
    "Ndn.Verify.C117_interest",
    "Ndn.Verify.C117_digest",
    "Ndn.Verify.C117_no_key",
    "Ndn.Verify.C117_unsigned",
    "Ndn.Verify.C117_encoded",
    "Ndn.Verify.C117_authentic_counterexample",
    "Ndn.Verify.C117_authentic_partial"
   ],
   "note": "Acceptance full, for both formats. Authenticity fails if names may have components of type 36, as the octets signed do not show where the name ends (C117_authentic_counterexample); C117_authentic_partial: without such components."
  },
  {
   "property": "C118",
   "status": "partial",
   "theorems": [
    "Ndn.Verify.C118_separate_counterexample",
    "Ndn.Verify.C118_separate_partial",
    "Ndn.Verify.C118_no_data"
   ],
   "note": "Fails: a name component may have the type of a name, so that an Interest and a Data packet have the same signed octets (C118_separate_counterexample). C118_separate_partial, C118_no_data: for Interests whose names do not begin with a component of type 7."
  },
  {
   "property": "C119",
   "status": "partial",
   "theorems": [
    "Ndn.Verify.C119_resigned_counterexample",
    "Ndn.Verify.C119_cached_counterexample",
    "Ndn.Verify.C119_old_partial"
   ],
   "note": "Fails if the Interest has a signature in the new format already (C119_resigned_counterexample) or the signature information was cached in the new format (C119_cached_counterexample). C119_old_partial: neither is the case."
  },
  {
   "property": "C120",
   "status": "partial",
   "theorems": [
    "Ndn.Netlink.C120_messages_counterexample",
    "Ndn.Netlink.C120_messages_partial",
    "Ndn.Netlink.C120_messages_unique",
    "Ndn.Netlink.C120_attributes",
    "Ndn.Netlink.C120_value",
    "Ndn.Netlink.C120_text"
   ],
   "note": "Attributes full. A datagram whose last message is not padded makes the remaining length negative, and left-over octets are handled (C120_messages_counterexample); C120_messages_partial: the length of the datagram is a multiple of four."
  },
  {
   "property": "C121",
   "status": "partial",
   "theorems": [
    "Ndn.Netlink.C121_order",
    "Ndn.Netlink.C121_foreign",
    "Ndn.Netlink.C121_notified_counterexample",
    "Ndn.Netlink.C121_notified_partial",
    "Ndn.Netlink.C121_completes_counterexample",
    "Ndn.Netlink.C121_completes_partial"
   ],
   "note": "Order and foreign messages full. The answer to a request numbered 0 removes the handler of notifications (C121_notified_counterexample), and after an error as an answer the enumeration never ends (C121_completes_counterexample). Partial: no request is numbered 0, answers end with a message saying so."
  },
  {
   "property": "C122",
   "status": "partial",
   "theorems": [
    "Ndn.Netlink.C122_signals",
    "Ndn.Netlink.C122_listed",
    "Ndn.Netlink.C122_state",
    "Ndn.Netlink.C122_link",
    "Ndn.Netlink.C122_unlink",
    "Ndn.Netlink.C122_other",
    "Ndn.Netlink.C122_bridge_counterexample"
   ],
   "note": "Full for the signals and the effect of each message. An interface taken out of a bridge is removed from the list (C122_bridge_counterexample)."
  },
  {
   "property": "C123",
   "status": "partial",
   "theorems": [
    "Ndn.Netlink.C123_new",
    "Ndn.Netlink.C123_removed",
    "Ndn.Netlink.C123_ignored",
    "Ndn.Netlink.C123_zero",
    "Ndn.Netlink.C123_system_counterexample",
    "Ndn.Netlink.C123_system_partial",
    "Ndn.Netlink.C123_distinct"
   ],
   "note": "Effect of each message full. An address the system has with two prefix lengths is gone when one of them is removed (C123_system_counterexample); C123_system_partial: one prefix length for each."
  },
  {
   "property": "C124",
   "status": "partial",
   "theorems": [
    "Ndn.KeyFile.C124_stored_counterexample",
    "Ndn.KeyFile.C124_again_counterexample",
    "Ndn.KeyFile.C124_stored_partial",
    "Ndn.KeyFile.C124_isolated",
    "Ndn.KeyFile.C124_deleted",
    "Ndn.KeyFile.C124_failed",
    "Ndn.KeyFile.C124_lookup",
    "Ndn.KeyFile.C124_history_partial"
   ],
   "note": "Isolation and agreement of the lookups are proved without conditions. That what is reported as stored is stored is false: nobody looks at the stream after flushing it or after failing to open it, so a full disk loses a new key silently, and a file without a key left over by it (which the owner may not write to) makes every later attempt fail silently. Proved with space on the disk and a file that can be written; and the whole history refined to a map when nothing goes wrong. Encodings and digests are parameters with stated laws."
  },
  {
   "property": "C125",
   "status": "partial",
   "theorems": [
    "Ndn.KeyFile.C125_atomic",
    "Ndn.KeyFile.C125_retry_counterexample",
    "Ndn.KeyFile.C125_retry_partial"
   ],
   "note": "Atomicity per name at every crash point is proved (if digests of public keys do not collide). That a key can be stored again afterwards is false after a call on a full disk, and proved otherwise."
  },
  {
   "property": "C126",
   "status": "partial",
   "theorems": [
    "Ndn.KeyFile.C126_private_counterexample",
    "Ndn.KeyFile.C126_private_partial",
    "Ndn.KeyFile.C126_between"
   ],
   "note": "False: the key is written before the permissions are changed, so with the usual umask others can read it in between, and for ever if the program is stopped there. Proved for umasks that keep others out, through any crashes; and between calls for every umask without crashes."
  },
  {
   "property": "C127",
   "status": "partial",
   "theorems": [
    "Ndn.KeyFile.C127_used_counterexample",
    "Ndn.KeyFile.C127_used_partial"
   ],
   "note": "False for two Tpm objects on one directory: one goes on using a key that was deleted through the other. Proved for any history in which one object does everything or nothing is deleted."
  },
  {
   "property": "C128",
   "status": "proved",
   "theorems": [
    "Ndn.Locator.C128_pib",
    "Ndn.Locator.C128_tpm",
    "Ndn.Locator.C128_roundtrip",
    "Ndn.Locator.C128_injective"
   ],
   "note": "Full."
  },
  {
   "property": "C129",
   "status": "partial",
   "theorems": [
    "Ndn.Locator.C129_linked",
    "Ndn.Locator.C129_other",
    "Ndn.Locator.C129_mismatch",
    "Ndn.Locator.C129_defaults",
    "Ndn.Locator.C129_kept_counterexample",
    "Ndn.Locator.C129_kept_partial",
    "Ndn.Locator.C129_supplied_counterexample",
    "Ndn.Locator.C129_supplied_partial",
    "Ndn.Locator.C129_valid_counterexample",
    "Ndn.Locator.C129_valid_partial",
    "Ndn.Locator.C129_alias_counterexample",
    "Ndn.Locator.C129_alias_partial",
    "Ndn.Locator.C129_default_fixed"
   ],
   "note": "Linking, effect on others and mismatches full. False: the default PIB is erased without permission when opened with another TPM (C129_kept_counterexample); the next program gets the default TPM instead of the one it asks for (C129_supplied_counterexample); valid locators are refused if the unused default is invalid (C129_valid_counterexample); texts are compared, not directories (C129_alias_counterexample). Each has a partial theorem for the remaining cases. Opening a back end does not fail in the model."
  },
  {
   "property": "C130",
   "status": "partial",
   "theorems": [
    "Ndn.Locator.C130_matched_counterexample",
    "Ndn.Locator.C130_files_counterexample",
    "Ndn.Locator.C130_matched_partial"
   ],
   "note": "False if a database is used with a TPM in memory (C130_matched_counterexample) or if two KeyChains exist at once (C130_files_counterexample). C130_matched_partial: one KeyChain at a time, databases with TPMs in files, all histories and crashes while a KeyChain is made."
  },
  {
   "property": "C131",
   "status": "partial",
   "theorems": [
    "Ndn.Bundle.C131_certificates",
    "Ndn.Bundle.C131_rejected",
    "Ndn.Bundle.C131_segments",
    "Ndn.Bundle.C131_errors",
    "Ndn.Bundle.C131_stuck_counterexample",
    "Ndn.Bundle.C131_stuck_partial"
   ],
   "note": "Certificates, errors and independence of the segments full. Octets that no element can begin with are not reported (C131_stuck_counterexample); C131_stuck_partial: as long as a legal type can come out of them."
  },
  {
   "property": "C132",
   "status": "partial",
   "theorems": [
    "Ndn.Dial.C132_uri",
    "Ndn.Dial.C132_asked_counterexample",
    "Ndn.Dial.C132_asked_partial",
    "Ndn.Dial.C132_host_counterexample",
    "Ndn.Dial.C132_family_counterexample"
   ],
   "note": "URIs full. False if the file that counts cannot be opened: it is taken for an empty one (C132_asked_counterexample); C132_asked_partial for the rest. The host of a unix URI is ignored (C132_host_counterexample); tcp4 and tcp6 with a host name mean the same (C132_family_counterexample). The reader of configuration files is a parameter."
  },
  {
   "property": "C133",
   "status": "partial",
   "theorems": [
    "Ndn.Scoped.C133_once_counterexample",
    "Ndn.Scoped.C133_once_partial",
    "Ndn.Scoped.C133_when",
    "Ndn.Scoped.C133_moved"
   ],
   "note": "False if a plain handle is copied: both copies cancel (C133_once_counterexample). C133_once_partial: every history without such copies. The functions that cancel do not use handles."
  },
  {
   "property": "C134",
   "status": "partial",
   "theorems": [
    "Ndn.Scoped.C134_scoped_counterexample",
    "Ndn.Scoped.C134_scoped_partial",
    "Ndn.Scoped.C134_when",
    "Ndn.Scoped.C134_moved",
    "Ndn.Scoped.C134_only"
   ],
   "note": "False: assigning a ScopedConnection to another leaves the connection of the latter connected for good (C134_scoped_counterexample). C134_scoped_partial: every history in which no ScopedConnection is assigned to a connected one."
  },
  {
   "property": "C135",
   "status": "partial",
   "theorems": [
    "Ndn.Ndnsec.C135_commands_partial",
    "Ndn.Ndnsec.C135_stored",
    "Ndn.Ndnsec.C135_reading",
    "Ndn.Ndnsec.C135_deleted",
    "Ndn.Ndnsec.C135_not_default_counterexample",
    "Ndn.Ndnsec.C135_set_default_counterexample",
    "Ndn.Ndnsec.C135_no_default_counterexample"
   ],
   "note": "C135_commands_partial: every sequence of commands; excluded are certificate files that are none or replace the default certificate by another of its name, keys named by a digest already in use, and test messages that do not tell. key-gen -n, set-default -c and cert-install -N set missing defaults against their help texts (counterexamples). list, export and the parsing of options are not modelled."
  },
  {
   "property": "C136",
   "status": "partial",
   "theorems": [
    "Ndn.Ndnsec.C136_usable_partial",
    "Ndn.Ndnsec.C136_killed_partial",
    "Ndn.Ndnsec.C136_counterexample"
   ],
   "note": "False for delete of an identity (C136_counterexample). C136_*_partial: all other commands killed anywhere."
  },
  {
   "property": "C137",
   "status": "partial",
   "theorems": [
    "Ndn.Ndnsec.C137_enrollment",
    "Ndn.Ndnsec.C137_signed_counterexample",
    "Ndn.Ndnsec.C137_request_counterexample"
   ],
   "note": "The enrolment in full; but cert-gen does not check the signature of the request (C137_request_counterexample), and without a default identity makes certificates with only a digest (C137_signed_counterexample)."
  },
  {
   "property": "C138",
   "status": "partial",
   "theorems": [
    "Ndn.Flow.C138_intact",
    "Ndn.Flow.C138_lossless_partial"
   ],
   "note": "C138_intact in full. C138_lossless_partial: completion without losses, for the mode that is not in order and when all Interests answered were not cancelled."
  },
  {
   "property": "C139",
   "status": "partial",
   "theorems": [
    "Ndn.Flow.C139_dataset",
    "Ndn.Flow.C139_versions_partial",
    "Ndn.Flow.C139_rejected"
   ],
   "note": "C139_dataset and C139_rejected in full. C139_versions_partial: several versions, if no Interest is answered after it was cancelled (C39_object_counterexample)."
  },
  {
   "property": "C140",
   "status": "proved",
   "theorems": [
    "Ndn.Flow.C140_request",
    "Ndn.Flow.C140_response"
   ],
   "note": "In full for the commands whose parameters are in the name; for rib/announce see C145."
  },
  {
   "property": "C141",
   "status": "partial",
   "theorems": [
    "Ndn.Flow.C141_stream_partial"
   ],
   "note": "Partial because, as in C83, it assumes that no stream is registered under the full name of a stream already used (C83_counterexample), and because handlers that call the subscriber are left to C68."
  },
  {
   "property": "C142",
   "status": "proved",
   "theorems": [
    "Ndn.Verify.C142_new"
   ],
   "note": "In full for Interests without a digest component elsewhere in the name and without SignatureInfo and SignatureValue; for those already signed see C75."
  },
  {
   "property": "C143",
   "status": "partial",
   "theorems": [
    "Ndn.Secure.C143_sqlite_partial",
    "Ndn.Secure.C143_memory_partial"
   ],
   "note": "C143_sqlite_partial, C143_memory_partial: excluded are the calls that C92 excludes, digest algorithms other than SHA-256 (C93_algorithm_counterexample), and Interests already signed (C75, C119)."
  },
  {
   "property": "C144",
   "status": "partial",
   "theorems": [
    "Ndn.Replay.C144_signed",
    "Ndn.Replay.C144_signed_never_refused",
    "Ndn.Replay.C144_command",
    "Ndn.Replay.C144_command_never_refused",
    "Ndn.Replay.C144_paced",
    "Ndn.Replay.C144_clock_counterexample",
    "Ndn.Replay.C144_burst_counterexample"
   ],
   "note": "In full as stated. Partial because the times can leave the grace period although they are validated when they are made: after the clock was set back (C144_clock_counterexample) and after bursts (C144_burst_counterexample)."
  },
  {
   "property": "C145",
   "status": "partial",
   "theorems": [
    "Ndn.Flow.C145_create",
    "Ndn.Flow.C145_parse_exact",
    "Ndn.Flow.C145_handled",
    "Ndn.Flow.C145_signed",
    "Ndn.Flow.C145_response",
    "Ndn.Flow.C145_valid_counterexample"
   ],
   "note": "In full as stated, given that the packet of the announcement can be encoded. Partial because an announcement whose signing failed passes the check (C145_valid_counterexample)."
  },
  {
   "property": "C146",
   "status": "partial",
   "theorems": [
    "Ndn.Secure.C146_sqlite_partial",
    "Ndn.Secure.C146_memory_partial",
    "Ndn.Secure.C146_self_signed",
    "Ndn.Secure.C146_exact"
   ],
   "note": "C146_sqlite_partial, C146_memory_partial: excluded are the calls that C92 excludes, digest algorithms other than SHA-256 and periods with bounds outside the range of the clock (C56_defined_counterexample). Certificates signed with a digest or an HMAC key are not covered."
  },
  {
   "property": "C147",
   "status": "partial",
   "theorems": [
    "Ndn.Dummy.C147_links_partial",
    "Ndn.Dummy.C147_broadcast",
    "Ndn.Dummy.C147_callbacks",
    "Ndn.Dummy.C147_self_counterexample",
    "Ndn.Dummy.C147_callbacks_counterexample"
   ],
   "note": "In full as stated. Partial because linking a face to itself makes its destruction undefined (C147_self_counterexample) and callbacks must not change the link on which they are called (C147_callbacks_counterexample)."
  },
  {
   "property": "C148",
   "status": "partial",
   "theorems": [
    "Ndn.Dummy.C148_answer",
    "Ndn.Dummy.C148_success_partial",
    "Ndn.Dummy.C148_face",
    "Ndn.Dummy.C148_others",
    "Ndn.Dummy.C148_success_counterexample",
    "Ndn.Dummy.C148_self_counterexample",
    "Ndn.Dummy.C148_throws_counterexample"
   ],
   "note": "In full as stated. Partial because valid commands without flags or with face ID zero are not reported as successes (C148_success_counterexample, C148_self_counterexample) and some Interests make the face throw (C148_throws_counterexample)."
  },
  {
   "property": "C149",
   "status": "proved",
   "theorems": [
    "Ndn.Text.C149_scope",
    "Ndn.Text.C149_persistency",
    "Ndn.Text.C149_linkType",
    "Ndn.Text.C149_event",
    "Ndn.Text.C149_origin",
    "Ndn.Text.C149_read",
    "Ndn.Text.C149_roundtrip",
    "Ndn.Text.C149_flags",
    "Ndn.Text.C149_flags_injective"
   ],
   "note": "In full as stated, for streams with default flags in the C locale."
  },
  {
   "property": "C150",
   "status": "partial",
   "theorems": [
    "Ndn.Text.C150_output",
    "Ndn.Text.C150_lines_partial",
    "Ndn.Text.C150_nested",
    "Ndn.Text.C150_flush_counterexample"
   ],
   "note": "In full as stated. Partial because a flush within a line divides it (C150_flush_counterexample)."
  },
  {
   "property": "C151",
   "status": "partial",
   "theorems": [
    "Ndn.Link.C151_sent",
    "Ndn.Link.C151_received",
    "Ndn.Link.C151_ignored",
    "Ndn.Link.C151_transfer",
    "Ndn.Link.C151_injected",
    "Ndn.Link.C151_observed",
    "Ndn.Link.C151_overLink",
    "Ndn.Link.C151_size_partial",
    "Ndn.Link.C151_size_counterexample"
   ],
   "note": "In full as stated. Partial because a packet within 8800 octets is refused if its tags make the LpPacket larger (C151_size_counterexample)."
  },
  {
   "property": "C152",
   "status": "partial",
   "theorems": [
    "Ndn.Stub.C152_observers_partial",
    "Ndn.Stub.C152_observers_counterexample",
    "Ndn.Stub.C152_calls",
    "Ndn.Stub.C152_list"
   ],
   "note": "In full as stated. Partial because an observer that calls the monitor from its handler misleads those connected after it (C152_observers_counterexample). Renaming an interface after it was added is not modelled."
  },
  {
   "property": "C153",
   "status": "proved",
   "theorems": [
    "Ndn.Stub.C153_tags"
   ],
   "note": "In full as stated. The objects pointed to are not modelled; copies share them."
  },
  {
   "property": "C154",
   "status": "proved",
   "theorems": [
    "Ndn.Name.C154_component",
    "Ndn.Name.C154_unique",
    "Ndn.Name.C154_path",
    "Ndn.Name.C154_relative",
    "Ndn.Name.C154_trailing",
    "Ndn.Name.C154_periods"
   ],
   "note": "In full as stated; scheme and authority in front of the path are C14_scheme and C14_authority."
  },
  {
   "property": "C155",
   "status": "partial",
   "theorems": [
    "Ndn.KeyParams.C155_with_id",
    "Ndn.KeyParams.C155_with_type",
    "Ndn.KeyParams.C155_defaults",
    "Ndn.KeyParams.C155_kept",
    "Ndn.KeyParams.C155_generates",
    "Ndn.KeyParams.C155_named",
    "Ndn.KeyParams.C155_set_id_counterexample",
    "Ndn.KeyParams.C155_set_id_partial",
    "Ndn.KeyParams.C155_not_empty_counterexample",
    "Ndn.KeyParams.C155_not_empty_partial"
   ],
   "note": "Sizes, generation and naming in full. Partial because setKeyId is ignored by parameters made without a key id and by HMAC keys (C155_set_id_counterexample), and can set an empty id (C155_not_empty_counterexample). The generation itself is a request to the library of cryptography."
  }
 ]
}