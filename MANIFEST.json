{
 "claims": [
  {
   "property": "C01",
   "status": "proved",
   "theorems": [
    "Verif.Props.Base64.C01_roundtrip",
    "Verif.Props.Base64.C01_roundtrip_exists"
   ],
   "note": ""
  },
  {
   "property": "C02",
   "status": "proved",
   "theorems": [
    "Verif.Props.Base64.C02_encode_is_rfc4648",
    "Verif.Props.Base64.C02_bad_line_size",
    "Verif.Props.Base64.C02_lines_bounded",
    "Verif.Props.Base64.C02_lines_content",
    "Verif.Props.Base64.C02_length"
   ],
   "note": ""
  },
  {
   "property": "C03",
   "status": "proved",
   "theorems": [
    "Verif.Props.Base64.C03_decoder_ignores_foreign",
    "Verif.Props.Base64.C03_write_append"
   ],
   "note": ""
  },
  {
   "property": "C04",
   "status": "proved",
   "theorems": [
    "Verif.Props.Numeral.C04_uintToDec",
    "Verif.Props.Numeral.C04_uintToHex",
    "Verif.Props.Numeral.C04_uintToBin",
    "Verif.Props.Numeral.C04_intToDec",
    "Verif.Props.Numeral.C04_intToDec_int_min_ub",
    "Verif.Props.Numeral.C04_itoa_unsigned",
    "Verif.Props.Numeral.C04_itoa_signed",
    "Verif.Props.Numeral.C04_itoa_long",
    "Verif.Props.Numeral.C04_itoa_ulong64",
    "Verif.Props.Numeral.C04_finding_ulong32",
    "Verif.Props.Numeral.C04_itohex",
    "Verif.Props.Numeral.C04_itobin",
    "Verif.Props.Numeral.C04_itobin_signed",
    "Verif.Props.Numeral.C04_finding_itobin_negative",
    "Verif.Props.Numeral.C04_finding_itohex_negative",
    "Verif.Props.Numeral.C04_itohex_signed",
    "Verif.Props.Numeral.C04_itoaWithZero"
   ],
   "note": "Full for the library's own entry points. Finding: the template intToDec<int> called directly on INT_MIN negates it (C04_intToDec_int_min_ub)."
  },
  {
   "property": "C05",
   "status": "partial",
   "theorems": [
    "Verif.Props.Numeral.C05_atoi_unsigned",
    "Verif.Props.Numeral.C05_atoi_signed_partial",
    "Verif.Props.Numeral.C05_min_then_more_accepted",
    "Verif.Props.Numeral.C05_full_statement_fails",
    "Verif.Props.Numeral.C05_cstring_unsigned",
    "Verif.Props.Numeral.C05_cstring_signed_partial",
    "Verif.Props.Numeral.C05_cstring_overread"
   ],
   "note": "Unsigned full, also for NUL-terminated texts with the default size. Signed: all texts but those that consist of the minimum followed by more characters, which are accepted (finding); NUL-terminated texts with a minus sign need as many readable bytes behind the text as the minimum has digits (finding C05_cstring_overread)."
  },
  {
   "property": "C06",
   "status": "proved",
   "theorems": [
    "Verif.Props.Numeral.C06_signed",
    "Verif.Props.Numeral.C06_unsigned"
   ],
   "note": ""
  },
  {
   "property": "C07",
   "status": "proved",
   "theorems": [
    "Verif.Props.Numeral.C07_hextoi",
    "Verif.Props.Numeral.C07_cstring",
    "Verif.Props.Numeral.C07_roundtrip"
   ],
   "note": ""
  },
  {
   "property": "C08",
   "status": "proved",
   "theorems": [
    "Verif.Props.BitOp.C08_bsf",
    "Verif.Props.BitOp.C08_bsr",
    "Verif.Props.BitOp.C08_fallbacks_agree",
    "Verif.Props.BitOp.C08_popcnt",
    "Verif.Props.BitOp.C08_mask"
   ],
   "note": ""
  },
  {
   "property": "C09",
   "status": "proved",
   "theorems": [
    "Verif.Props.Endian.C09_getLE",
    "Verif.Props.Endian.C09_getBE",
    "Verif.Props.Endian.C09_setLE",
    "Verif.Props.Endian.C09_setBE",
    "Verif.Props.Endian.C09_get_after_set64",
    "Verif.Props.Endian.C09_get_after_set32",
    "Verif.Props.Endian.C09_get_after_set16",
    "Verif.Props.Endian.C09_byteSwap"
   ],
   "note": ""
  },
  {
   "property": "C10",
   "status": "partial",
   "theorems": [
    "Verif.Props.BitVector.C10_step",
    "Verif.Props.BitVector.C10_history",
    "Verif.Props.BitVector.C10_observe",
    "Verif.Props.BitVector.C10_extractPtr_partial",
    "Verif.Props.BitVector.C10_extractWord_partial",
    "Verif.Props.BitVector.C10_init_keeps_stale_bits",
    "Verif.Props.BitVector.C10_append32_keeps_garbage",
    "Verif.Props.BitVector.C10_extract_wrap_ub",
    "Verif.Props.BitVector.C10_resize_wrap"
   ],
   "note": "Refinement to a list of bits for every history of resize/append/set/reset, under no size_t overflow. Partial: extract needs pos+bitLen < 2^64 (C10_extract_wrap_ub); init keeps bits above the size (C10_init_keeps_stale_bits); append(uint64_t) on a 32-bit-word vector keeps garbage (C10_append32_keeps_garbage); resize near 2^64 wraps (C10_resize_wrap)."
  },
  {
   "property": "C11",
   "status": "partial",
   "theorems": [
    "Verif.Props.BitVector.C11_eq_partial",
    "Verif.Props.BitVector.C11_length_ignored",
    "Verif.Props.BitVector.C11_init_breaks_eq"
   ],
   "note": "True for clean vectors of equal size; the code ignores the size (C11_length_ignored) and is confused by bits above the size left by init (C11_init_breaks_eq)."
  },
  {
   "property": "C12",
   "status": "partial",
   "theorems": [
    "Verif.Props.SucVector.C12_too_large",
    "Verif.Props.SucVector.C12_init",
    "Verif.Props.SucVector.C12_init_at_size_partial",
    "Verif.Props.SucVector.C12_dirty_tail_counted",
    "Verif.Props.SucVector.C12_build",
    "Verif.Props.SucVector.C12_size0_counts_padding",
    "Verif.Props.SucVector.C12_load_not_frozen"
   ],
   "note": "Full below the size and for the set/ready protocol. Partial at the size after init: bits behind the size in the buffer are counted (C12_dirty_tail_counted). Also: size(false) counts padding (C12_size0_counts_padding), load leaves the object writable (C12_load_not_frozen)."
  },
  {
   "property": "C13",
   "status": "partial",
   "theorems": [
    "Verif.Props.Select8.C13_select8_table",
    "Verif.Props.Select8.C13_select8_one",
    "Verif.Props.SucVector.C13_select_init_partial",
    "Verif.Props.SucVector.C13_notFound_init_partial",
    "Verif.Props.SucVector.C13_select_beyond_size",
    "Verif.Props.SucVector.C13_init_hangs_at_max_size",
    "Verif.Props.SucVector.C13_select_build_partial"
   ],
   "note": "Every existing occurrence is found. Partial: select0 beyond the last zero answers a position outside the vector instead of NotFound (C13_select_beyond_size); at the maximal size init can loop forever (C13_init_hangs_at_max_size), so sizes up to 2^40-256."
  },
  {
   "property": "C14",
   "status": "partial",
   "theorems": [
    "Verif.Props.Wavelet.C14_get_rank",
    "Verif.Props.Wavelet.C14_rankLt_partial",
    "Verif.Props.Wavelet.C14_rankLt_overflow",
    "Verif.Props.Wavelet.C14_rank_at_4G",
    "Verif.Props.Wavelet.C14_init_throws",
    "Verif.Props.Wavelet.C14_get_zero_bits"
   ],
   "note": "get, rank, size(val), get(&val,pos) proved for every sequence shorter than 2^32; rankLt proved when (valBitLen-1)*size < 2^32. Findings proved: rankLt is wrong by 2^32 for 2^29 16-bit zeros; rank is wrong at exactly 2^32 elements; get on a zero-bit matrix reads outside."
  },
  {
   "property": "C15",
   "status": "partial",
   "theorems": [
    "Verif.Props.Wavelet.C15_select_partial",
    "Verif.Props.Wavelet.C15_select_rank_partial",
    "Verif.Props.Wavelet.C15_select_off"
   ],
   "note": "select proved right and NotFound exact for every sequence shorter than 2^32."
  },
  {
   "property": "C16",
   "status": "partial",
   "theorems": [
    "Verif.Props.FMindex.C16_raw_bytes_partial",
    "Verif.Props.FMindex.C16_coded_bytes_partial",
    "Verif.Props.FMindex.C16_coded_wide_partial",
    "Verif.Props.FMindex.C16_empty_key",
    "Verif.Props.FMindex.C16_raw_zero_throws",
    "Verif.Props.FMindex.C16_raw_wide_throws",
    "Verif.Props.FMindex.C16_rebuild_wrong_range",
    "Verif.Props.FMindex.C16_raw_zero_key_found",
    "Verif.Props.FMindex.C16_sorter_failure_ignored",
    "Verif.Props.Sais.C16_raw_bytes_sorted_partial",
    "Verif.Props.Sais.C16_coded_bytes_sorted_partial",
    "Verif.Props.Sais.C16_coded_wide_sorted_partial",
    "Verif.Props.Sais.C16_long_text_throws",
    "Verif.Props.Sais.C16_no_memory_ignored"
   ],
   "note": "Proved for FMindexT<uint8_t,true>, <uint8_t,false> (at most 255 different bytes) and <uint16_t,false> (at most 65534), on a new object; with any sorter that returns a suffix array, and without that assumption with saisxx itself (C90, *_sorted_partial, texts below 2^31 - 1 characters). Findings proved: a rebuilt index answers wrong ranges (C16_rebuild_wrong_range), failure -2 of the sorter is ignored (C16_sorter_failure_ignored), FMindexT<uint16_t,true> always throws (C16_raw_wide_throws), a raw index finds the terminator (C16_raw_zero_key_found)."
  },
  {
   "property": "C17",
   "status": "partial",
   "theorems": [
    "Verif.Props.FMindex.C17_raw_bytes_partial",
    "Verif.Props.FMindex.C17_coded_bytes_partial",
    "Verif.Props.FMindex.C17_coded_wide_partial",
    "Verif.Props.FMindex.C17_rebuild_old_positions",
    "Verif.Props.Sais.C17_raw_bytes_sorted_partial",
    "Verif.Props.Sais.C17_coded_bytes_sorted_partial",
    "Verif.Props.Sais.C17_coded_wide_sorted_partial"
   ],
   "note": "Every row of a range is converted to an occurrence, each occurrence exactly once, and getPrevString returns the preceding text; termination included (any fuel above the text length). Finding: a rebuilt index answers positions of the old text (C17_rebuild_old_positions)."
  },
  {
   "property": "C18",
   "status": "partial",
   "theorems": [
    "Verif.Props.CSucVector.C18_get_rank1_partial",
    "Verif.Props.CSucVector.C18_rank_end_partial",
    "Verif.Props.CSucVector.C18_any_dictionary",
    "Verif.Props.CSucVector.C18_concatPair",
    "Verif.Props.CSucVector.C18_too_long",
    "Verif.Props.CSucVector.C18_finding_endless",
    "Verif.Props.CSucVector.C18_finding_second_init",
    "Verif.Props.CSucVector.C18_finding_second_init_ub",
    "Verif.Props.CSucVector.C18_finding_dirty_tail"
   ],
   "note": "get and rank1 for strings of at most 2^32-17408 bits on a new object, for the table of the code and for any full dictionary (C18_any_dictionary); the compiled table has 256 entries, so the growing loop of init never grows it. Findings: endless loop near 2^32 bits, second init keeps old blocks, bits behind the end counted at the end."
  },
  {
   "property": "C19",
   "status": "proved",
   "theorems": [
    "Verif.Props.Serializer.C19_roundtrip",
    "Verif.Props.Serializer.C19_length",
    "Verif.Props.Serializer.C19_short",
    "Verif.Props.Serializer.C19_concatenated",
    "Verif.Props.Serializer.C19_prefix_free",
    "Verif.Props.Serializer.C19_cross_width_wrong"
   ],
   "note": "Full for loading as the same width. Finding: an int below -32768 loaded as int64_t is 2^32 too large (C19_cross_width_wrong)."
  },
  {
   "property": "C20",
   "status": "partial",
   "theorems": [
    "Verif.Props.Serializer.C20_roundtrip_partial",
    "Verif.Props.Serializer.C20_set_inserts",
    "Verif.Props.Serializer.C20_set_not_cleared",
    "Verif.Props.Serializer.C20_map_keeps_old_value",
    "Verif.Props.Serializer.C20_umap_keeps_old_value",
    "Verif.Props.Serializer.C20_full_statement_fails"
   ],
   "note": "Full for every nested type when the destination is new, and for every destination for integers, PODs, strings, vectors and lists. Findings: load does not clear sets, maps, unordered maps (C20_set_not_cleared, C20_map_keeps_old_value, C20_umap_keeps_old_value, C20_full_statement_fails)."
  },
  {
   "property": "C21",
   "status": "proved",
   "theorems": [
    "Verif.Props.Serializer.C21_truncated_throws",
    "Verif.Props.Serializer.C21_never_undefined"
   ],
   "note": "Full, for every type, truncation point, fragmentation and destination; also no undefined behaviour on arbitrary input."
  },
  {
   "property": "C22",
   "status": "proved",
   "theorems": [
    "Verif.Props.Stream.C22_read",
    "Verif.Props.Stream.C22_read_flag",
    "Verif.Props.Stream.C22_fragmentation_invisible",
    "Verif.Props.Stream.C22_read_char",
    "Verif.Props.Stream.C22_memory_input",
    "Verif.Props.Stream.C22_string_input",
    "Verif.Props.Stream.C22_zero_only_at_end",
    "Verif.Props.Stream.C22_memory_output",
    "Verif.Props.Stream.C22_memory_write"
   ],
   "note": "Full."
  },
  {
   "property": "C23",
   "status": "proved",
   "theorems": [
    "Verif.Props.LineStream.C23_lines",
    "Verif.Props.LineStream.C23_fragmentation_invisible",
    "Verif.Props.LineStream.C23_every_call",
    "Verif.Props.LineStream.C23_end_is_final",
    "Verif.Props.LineStream.C23_limit_one_refuses",
    "Verif.Props.LineStream.C23_limit_zero_loses_lines",
    "Verif.Props.LineStream.C23_after_too_long"
   ],
   "note": "Full for limits of at least 2. Findings: limit 1 refuses one-character CRLF lines, limit 0 loses lines (C23_limit_one_refuses, C23_limit_zero_loses_lines), behaviour after a too long line (C23_after_too_long)."
  },
  {
   "property": "C24",
   "status": "proved",
   "theorems": [
    "Verif.Props.Csv.C24_roundtrip",
    "Verif.Props.Csv.C24_separators",
    "Verif.Props.Csv.C24_reads_foreign_text",
    "Verif.Props.Csv.C24_fragmentation_invisible",
    "Verif.Props.Csv.C24_last_row_lost",
    "Verif.Props.Csv.C24_open_quote_unreported",
    "Verif.Props.Csv.C24_trailing_empty_field_dropped",
    "Verif.Props.Csv.C24_ff_ends_stream",
    "Verif.Props.Csv.C24_cr_dropped",
    "Verif.Props.Csv.C24_limit_is_on_file"
   ],
   "note": "Proved for every table: rows printed in the documented form and read back, however the stream fragments the bytes. Findings: the last row without line end is lost, an unclosed quote at the end is not reported, a trailing empty field is dropped, byte 0xff ends the stream, CR is dropped, and the size limit applies to the whole file."
  },
  {
   "property": "C25",
   "status": "proved",
   "theorems": [
    "Verif.Props.Config.C25_roundtrip",
    "Verif.Props.Config.C25_roundtrip_queries",
    "Verif.Props.Config.C25_append",
    "Verif.Props.Config.C25_append_section",
    "Verif.Props.Config.C25_text_injective",
    "Verif.Props.Config.C25_value_limits"
   ],
   "note": "Proved for every configuration reachable through the API. Loading always makes the global section, so an absent one appears empty."
  },
  {
   "property": "C26",
   "status": "partial",
   "theorems": [
    "Verif.Props.Config.C26_load_iff_partial",
    "Verif.Props.Config.C26_refusal_throws",
    "Verif.Props.Config.C26_documented_accepted",
    "Verif.Props.Config.C26_single_entry",
    "Verif.Props.Config.C26_empty_names_accepted",
    "Verif.Props.Config.C26_cr_inside_value",
    "Verif.Props.Config.C26_repeats"
   ],
   "note": "Acceptance and meaning are characterised exactly for every text, with names allowed to be empty. The documented grammar asks for non-empty names, and the code does not (C26_empty_names_accepted)."
  },
  {
   "property": "C27",
   "status": "proved",
   "theorems": [
    "Verif.Props.MiniXml.C27_roundtrip",
    "Verif.Props.MiniXml.C27_escaped_clean",
    "Verif.Props.MiniXml.C27_unescape_exact"
   ],
   "note": "Full; unescape is also shown never to read outside the string."
  },
  {
   "property": "C28",
   "status": "proved",
   "theorems": [
    "Verif.Props.MiniXml.C28_roundtrip",
    "Verif.Props.MiniXml.C28_attributes_sorted",
    "Verif.Props.MiniXml.C28_parse_total",
    "Verif.Props.MiniXml.C28_print_injective",
    "Verif.Props.MiniXml.C28_quote_not_escaped",
    "Verif.Props.MiniXml.C28_empty_element_refused",
    "Verif.Props.MiniXml.C28_content_last_wins",
    "Verif.Props.MiniXml.C28_trailing_text_ignored"
   ],
   "note": "Full for trees with legal names and attribute values without the double quote; the parser is shown total on every text. Findings: attribute values are printed without escaping, <a/> without a space is an element named a/, only the last text piece is kept, trailing text is ignored. Stack depth is not modelled."
  },
  {
   "property": "C29",
   "status": "proved",
   "theorems": [
    "Verif.Props.StringOp.C29_split",
    "Verif.Props.StringOp.C29_split_all",
    "Verif.Props.StringOp.C29_split_appends",
    "Verif.Props.StringOp.C29_zero_is_unlimited"
   ],
   "note": "Full for 1 <= maxNum < 2^64. Finding: maxNum = 0 means unlimited (C29_zero_is_unlimited)."
  },
  {
   "property": "C30",
   "status": "proved",
   "theorems": [
    "Verif.Props.StringOp.C30_trim",
    "Verif.Props.StringOp.C30_trim_unique",
    "Verif.Props.StringOp.C30_trim_idempotent",
    "Verif.Props.StringOp.C30_strip",
    "Verif.Props.StringOp.C30_wide_blank",
    "Verif.Props.StringOp.C30_char_blank"
   ],
   "note": "Full; the blank predicates of char and Char strings are characterised too."
  },
  {
   "property": "C31",
   "status": "partial",
   "theorems": [
    "Verif.Props.StringOp.C31_compare",
    "Verif.Props.StringOp.C31_compare_refl",
    "Verif.Props.StringOp.C31_compare_swap",
    "Verif.Props.StringOp.C31_compare_trans",
    "Verif.Props.StringOp.C31_equal",
    "Verif.Props.StringOp.C31_start_with",
    "Verif.Props.StringOp.C31_find_partial",
    "Verif.Props.StringOp.C31_find_empty_in_empty",
    "Verif.Props.StringOp.C31_find_non_ascii_missed",
    "Verif.Props.StringOp.C31_find_non_ascii_overread",
    "Verif.Props.StringOp.C31_change_case",
    "Verif.Props.StringOp.C31_change_case_equal",
    "Verif.Props.StringOp.C31_finding_append_to_itself"
   ],
   "note": "CaseCompare/CaseEqual/CaseEqualStartWith full. CaseFind full when the target has as many characters as chars (always for std::string). Findings: non-ASCII targets on cybozu::String (C31_find_non_ascii_missed, C31_find_non_ascii_overread), empty in empty (C31_find_empty_in_empty)."
  },
  {
   "property": "C32",
   "status": "proved",
   "theorems": [
    "Verif.Props.Frequency.C32_bytes",
    "Verif.Props.Frequency.C32_general",
    "Verif.Props.Frequency.C32_size",
    "Verif.Props.Frequency.C32_init_accumulates",
    "Verif.Props.Frequency.C32_sort_exists",
    "Verif.Props.Frequency.C32_general_sort_exists",
    "Verif.Props.Frequency.C32_general_order",
    "Verif.Props.Frequency.C32_clear"
   ],
   "note": "Both table kinds proved for sequences shorter than the counter range, for every order the sort may give to ties; such an order always exists, and for the general table it is unique (greater element first). Finding: init does not clear (C32_init_accumulates)."
  },
  {
   "property": "C33",
   "status": "proved",
   "theorems": [
    "Verif.Props.Time.C33_filetime_rounds",
    "Verif.Props.Time.C33_filetime_restores",
    "Verif.Props.Time.C33_order",
    "Verif.Props.Time.C33_total_order",
    "Verif.Props.Time.C33_late_filetime_overflows",
    "Verif.Props.Time.C33_addSec",
    "Verif.Props.Time.C33_before_1970_wraps"
   ],
   "note": "Full for FILETIMEs from 1970 on whose signed product fits 63 bits (C33_filetime_rounds, C33_filetime_restores). Findings: earlier FILETIMEs wrap (C33_before_1970_wraps), later ones overflow (C33_late_filetime_overflows)."
  },
  {
   "property": "C34",
   "status": "partial",
   "theorems": [
    "Verif.Props.Time.C34_roundtrip",
    "Verif.Props.Time.C34_range",
    "Verif.Props.Time.C34_documented_accepted",
    "Verif.Props.Time.C34_accept_iff_partial",
    "Verif.Props.Time.C34_reject_throws",
    "Verif.Props.Time.C34_loose_is_strict",
    "Verif.Props.Time.C34_calendar",
    "Verif.Props.Time.C34_month_name_overread",
    "Verif.Props.Time.C34_exception_overread",
    "Verif.Props.Time.C34_february_31",
    "Verif.Props.Time.C34_loose_fields_accepted"
   ],
   "note": "Round trip full from 1970 to the end of 3000. Acceptance is characterised exactly, with the fields as the code reads them: -0 and NUL count (C34_loose_fields_accepted), the day is not checked against the month (C34_february_31). Excluded from the partial theorem: 19 characters with a month name, where the code reads beyond the text (C34_month_name_overread). The exception path also over-reads (C34_exception_overread). timegm/gmtime are modelled by the Gregorian calendar."
  },
  {
   "property": "C35",
   "status": "partial",
   "theorems": [
    "Verif.Props.Option.C35_convert_partial",
    "Verif.Props.Option.C35_convert_unsigned",
    "Verif.Props.Option.C35_unit",
    "Verif.Props.Option.C35_min_then_more_accepted",
    "Verif.Props.Option.C35_refused_hex_clears"
   ],
   "note": "Exact for every type and text, except texts without unit that start with the minimum of a signed type and go on (C35_min_then_more_accepted, the atoi.hpp defect). With a unit there is no exception (C35_unit). Finding: refused hexadecimal texts clear the variable."
  },
  {
   "property": "C36",
   "status": "proved",
   "theorems": [
    "Verif.Props.Option.C36_parse",
    "Verif.Props.Option.C36_reading",
    "Verif.Props.Option.C36_missing_option",
    "Verif.Props.Option.C36_unknown",
    "Verif.Props.Option.C36_declarations",
    "Verif.Props.Option.C36_dash_exits",
    "Verif.Props.Option.C36_bad_rest_ignored",
    "Verif.Props.Option.C36_delimiter_swallowed"
   ],
   "note": "Full: parse returns true exactly for the command lines with a complete, accepted reading (unique, C36_reading), and the variables hold what the reading says; declarations are accepted exactly when C36_declarations says; types are abstract conversion functions. Findings: '-' ends the program when no help option was declared, values refused by appendParamVec are dropped silently, a delimiter that does not look like an option is swallowed by a list option."
  },
  {
   "property": "C37",
   "status": "proved",
   "theorems": [
    "Verif.Props.Utf.C37_encode",
    "Verif.Props.Utf.C37_roundtrip",
    "Verif.Props.Utf.C37_decoder_exact",
    "Verif.Props.Utf.C37_tables_agree",
    "Verif.Props.Utf.C37_string_roundtrip",
    "Verif.Props.Utf.C37_string_exact",
    "Verif.Props.Utf.C37_char_size",
    "Verif.Props.Utf.C37_negative_char_accepted",
    "Verif.Props.Utf.C37_string_throws"
   ],
   "note": "Full for Char values >= 0 and every byte string. Finding: negative Char values count as valid and are written as one byte (C37_negative_char_accepted)."
  },
  {
   "property": "C38",
   "status": "partial",
   "theorems": [
    "Verif.Props.Utf.C38_encode",
    "Verif.Props.Utf.C38_roundtrip",
    "Verif.Props.Utf.C38_to_utf16",
    "Verif.Props.Utf.C38_to_utf8",
    "Verif.Props.Utf.C38_there_and_back",
    "Verif.Props.Utf.C38_returning_forms",
    "Verif.Props.Utf.C38_string_roundtrip",
    "Verif.Props.Utf.C38_string_throws",
    "Verif.Props.Utf.C38_decoder_accepts_partial",
    "Verif.Props.Utf.C38_lone_trail_accepted"
   ],
   "note": "Round trips and conversions full; ConvertUtf16ToUtf8 rejects every lone surrogate. Partial: GetCharFromUtf16 / String::append(Char16) accept lone trailing surrogates and toUtf16 writes lone surrogates (C38_lone_trail_accepted)."
  },
  {
   "property": "C39",
   "status": "proved",
   "theorems": [
    "Verif.Props.Sha.C39_sha256",
    "Verif.Props.Sha.C39_sha512",
    "Verif.Props.Sha.C39_small_buffer",
    "Verif.Props.Sha.C39_abc",
    "Verif.Props.Sha.C39_abc512",
    "Verif.Props.Sha.C39_root",
    "Verif.Props.Sha.C39_padding",
    "Verif.Props.Sha.C39_digest_does_not_clear"
   ],
   "note": "Full for messages below 2^61 bytes; the constants of the specification are computed from prime roots. Finding: digest does not reset the object (C39_digest_does_not_clear). OpenSSL branch not modelled."
  },
  {
   "property": "C40",
   "status": "proved",
   "theorems": [
    "Verif.Props.Sha.C40_sha1",
    "Verif.Props.Sha.C40_session",
    "Verif.Props.Sha.C40_abc"
   ],
   "note": "Full for messages below 2^61 bytes, including repeated use of one object; toString: see C142."
  },
  {
   "property": "C41",
   "status": "proved",
   "theorems": [
    "Verif.Props.Sha.C41_hmac"
   ],
   "note": "Full, for keys below 2^61 bytes and messages below 2^61-64 bytes."
  },
  {
   "property": "C42",
   "status": "proved",
   "theorems": [
    "Verif.Props.Hash.C42_siphash24"
   ],
   "note": ""
  },
  {
   "property": "C43",
   "status": "partial",
   "theorems": [
    "Verif.Props.Hash.C43_hash32_fnv1a",
    "Verif.Props.Hash.C43_hash32_seed",
    "Verif.Props.Hash.C43_hash32_append",
    "Verif.Props.Hash.C43_hash32_zero_restarts",
    "Verif.Props.Hash.C43_hash64_fnv1a",
    "Verif.Props.Hash.C43_ascii_string_partial",
    "Verif.Props.Hash.C43_finding_signed_char",
    "Verif.Props.Hash.C43_finding_hash64_not_compositional",
    "Verif.Props.Hash.C43_finding_zero_intermediate"
   ],
   "note": "hash32 composition for every element type; FNV-1a for uint8_t data and every seed, and for char data of ASCII characters only (partial): findings: signed char data above 0x7f is sign-extended, a zero intermediate value restarts (witness cc 24 31 c4), hash64 cannot be continued"
  },
  {
   "property": "C44",
   "status": "proved",
   "theorems": [
    "Verif.Props.Period.C44_xorshift_reference",
    "Verif.Props.Period.C44_plus_reference",
    "Verif.Props.Period.C44_xoroshiro_reference",
    "Verif.Props.Period.C44_xorshift_get64",
    "Verif.Props.Random.C44_xorshift_injective",
    "Verif.Props.Random.C44_plus_injective",
    "Verif.Props.Random.C44_xoroshiro_injective",
    "Verif.Props.Random.C44_xorshift_nonzero",
    "Verif.Props.Random.C44_plus_nonzero",
    "Verif.Props.Random.C44_periodic",
    "Verif.Props.Random.C44_finding_zero_seed",
    "Verif.Props.Random.C44_read",
    "Verif.Props.Random.C44_read_split"
   ],
   "note": "XorShift as stated; the 128-bit generators keep any seed but (0,0), which they accept and then return 0 for ever (finding)"
  },
  {
   "property": "C45",
   "status": "proved",
   "theorems": [
    "Verif.Props.Random.C45_reaches_all",
    "Verif.Props.Random.C45_no_repeat",
    "Verif.Props.Random.C45_period",
    "Verif.Props.Random.C45_output",
    "Verif.Props.Random.C45_read",
    "Verif.Props.Random.C45_read_split"
   ],
   "note": ""
  },
  {
   "property": "C46",
   "status": "proved",
   "theorems": [
    "Verif.Props.Random.C46_shuffle_perm",
    "Verif.Props.Random.C46_reachable",
    "Verif.Props.Random.C46_choices_unique"
   ],
   "note": "also: with different elements each arrangement comes from exactly one choice sequence; reachability for arrays up to 2^64 elements"
  },
  {
   "property": "C47",
   "status": "proved",
   "theorems": [
    "Verif.Props.Array.C47_vector",
    "Verif.Props.Array.C47_no_leak",
    "Verif.Props.Array.C47_finding_overflow",
    "Verif.Props.Array.C47_finding_self_move"
   ],
   "note": "full, over histories on any number of objects, with the memory modelled (no out-of-bounds, no double free, no leak); sizes in bytes below 2^64. Allocation failure and alignment not modelled. Findings: unchecked size overflow; self-move empties."
  },
  {
   "property": "C48",
   "status": "proved",
   "theorems": [
    "Verif.Props.Event.C48_refines",
    "Verif.Props.Event.C48_wait_matched",
    "Verif.Props.Event.C48_mutex",
    "Verif.Props.Event.C48_no_lost_wakeup",
    "Verif.Props.Event.C48_live",
    "Verif.Props.Event.C48_wakeup_returns",
    "Verif.Props.Event.C48_finding_coalesced"
   ],
   "note": "full for the C++11 version (std::mutex and std::condition_variable as specified, sequential consistency, strong fairness for liveness); pipe and Windows versions: see C102. Remark proved as a finding: wake-ups coalesce"
  },
  {
   "property": "C49",
   "status": "proved",
   "theorems": [
    "Verif.Props.Parallel.C49_ranges",
    "Verif.Props.Parallel.C49_at_most_once",
    "Verif.Props.Parallel.C49_exactly_once",
    "Verif.Props.Parallel.C49_exception",
    "Verif.Props.Parallel.C49_threw_reason",
    "Verif.Props.Parallel.C49_left_out",
    "Verif.Props.Parallel.C49_terminates",
    "Verif.Props.Parallel.C49_no_endless_run",
    "Verif.Props.Parallel.C49_finding_empty_what",
    "Verif.Props.Parallel.C49_finding_destroyed_while_running",
    "Verif.Props.Parallel.C49_no_use_after_destroy"
   ],
   "note": "full; the calls are assumed to end, exceptions other than std::exception are not modelled. Findings: an exception with empty text is swallowed; when beginThread fails, running threads use destroyed objects"
  },
  {
   "property": "C50",
   "status": "partial",
   "theorems": [
    "Verif.Props.TopScore.C50_best_partial",
    "Verif.Props.TopScore.C50_finding_size_one",
    "Verif.Props.TopScore.C50_finding_set_size",
    "Verif.Props.TopScore.C50_finding_get_table"
   ],
   "note": "2 <= maxSize < 2^31, scores from a linear order (no NaN). For maxSize = 1 the claim is false (finding: write outside the table); findings: setSize leaves a table of size 0, getTable on a table that is not full breaks later adds"
  },
  {
   "property": "C51",
   "status": "proved",
   "theorems": [
    "Verif.Props.Sparse.C51_compressed_history",
    "Verif.Props.Sparse.C51_plain_history",
    "Verif.Props.Sparse.C51_eq",
    "Verif.Props.Sparse.C51_iterator_survives_push",
    "Verif.Props.Sparse.C51_finding_failed_push_breaks_iterator"
   ],
   "note": "full for both tables, for histories of fewer than 2^30-1 operations and positions below 2^64; finding: a push_back that throws breaks a compressed iterator at the last element"
  },
  {
   "property": "C52",
   "status": "proved",
   "theorems": [
    "Verif.Props.Sparse.C52_intersection",
    "Verif.Props.Sparse.C52_union",
    "Verif.Props.Sparse.C52_inner_product_order",
    "Verif.Props.Sparse.C52_inner_product",
    "Verif.Props.Sparse.C52_inner_product_self"
   ],
   "note": "full for both tables (also mixed), floating point by the exact order of the additions; save/load, norm and set: see C98; Union::getMode (no return statement) and swap not modelled"
  },
  {
   "property": "C53",
   "status": "proved",
   "theorems": [
    "Verif.Props.Gzip.C53_skips_header",
    "Verif.Props.Gzip.C53_throws",
    "Verif.Props.Gzip.C53_bad_fixed_part",
    "Verif.Props.Gzip.C53_truncated",
    "Verif.Props.Gzip.C53_own_header",
    "Verif.Props.Gzip.C53_trailer",
    "Verif.Props.Gzip.C53_finding_header_crc_ignored"
   ],
   "note": "full for readGzipHeader; deflate/inflate (zlib itself) not modelled. Finding: the header CRC is skipped, not compared"
  },
  {
   "property": "C54",
   "status": "proved",
   "theorems": [
    "Verif.Props.PartialIO.C54_file_write",
    "Verif.Props.PartialIO.C54_socket_write",
    "Verif.Props.PartialIO.C54_write_terminates",
    "Verif.Props.PartialIO.C54_write_all",
    "Verif.Props.PartialIO.C54_socket_read",
    "Verif.Props.PartialIO.C54_socket_read_terminates",
    "Verif.Props.PartialIO.C54_file_read",
    "Verif.Props.PartialIO.C54_file_read_terminates",
    "Verif.Props.PartialIO.C54_finding_file_read_eof"
   ],
   "note": "full for the POSIX branches; File::read has no end-of-file check (finding: it never returns on a short file). Windows branches of File: see C143; of Socket not modelled"
  },
  {
   "property": "C55",
   "status": "partial",
   "theorems": [
    "Verif.Props.Handle.C55_at_most_once",
    "Verif.Props.Handle.C55_owner",
    "Verif.Props.Handle.C55_one_releaser",
    "Verif.Props.Handle.C55_exactly_once_partial",
    "Verif.Props.Handle.C55_destroyed_partial",
    "Verif.Props.Handle.C55_move",
    "Verif.Props.Handle.C55_finding_overwrite",
    "Verif.Props.Handle.C55_finding_move_race",
    "Verif.Props.Handle.C55_finding_early_detach"
   ],
   "note": "full under sequential consistency with atomic exchange; handle numbers are told apart even if the system reuses them. 'Exactly once' needs the stated user discipline; the findings show that without it handles leak"
  },
  {
   "property": "C56",
   "status": "proved",
   "theorems": [
    "Verif.Props.FileName.C56_has_extension",
    "Verif.Props.FileName.C56_base_name",
    "Verif.Props.FileName.C56_agree",
    "Verif.Props.FileName.C56_replace_back_slash",
    "Verif.Props.FileName.C56_finding_directory"
   ],
   "note": "full; finding: directories are not recognised by the split"
  },
  {
   "property": "C57",
   "status": "partial",
   "theorems": [
    "Verif.Props.TfIdf.C57_tfidf_df",
    "Verif.Props.TfIdf.C57_tfidf_tf",
    "Verif.Props.TfIdf.C57_df_spellings",
    "Verif.Props.TfIdf.C57_df_documents_partial",
    "Verif.Props.TfIdf.C57_finding_case",
    "Verif.Props.TfIdf.C57_finding_upper_keyword",
    "Verif.Props.TfIdf.C57_finding_term"
   ],
   "note": "TfIdf: full, with term frequencies. Df: the count is the number of spellings summed over the documents (proved for all histories), hence the number of documents when no document uses two spellings; without that condition the claim is false for Df (finding). Findings: keywords not in lower case are never found; term() uses the number of words as the number of documents"
  },
  {
   "property": "C58",
   "status": "proved",
   "theorems": [
    "Verif.Props.ShiftLeftBit.C58_shiftLeft",
    "Verif.Props.ShiftLeftBit.C58_edges"
   ],
   "note": ""
  },
  {
   "property": "C59",
   "status": "proved",
   "theorems": [
    "Verif.Props.MiniXml.C59_first_in_document_order",
    "Verif.Props.MiniXml.C59_none_iff"
   ],
   "note": "Full."
  },
  {
   "property": "C60",
   "status": "partial",
   "theorems": [
    "Verif.Props.IndexIO.C60_sucvector",
    "Verif.Props.IndexIO.C60_sucvector_built",
    "Verif.Props.IndexIO.C60_wavelet",
    "Verif.Props.IndexIO.C60_wavelet_built",
    "Verif.Props.IndexIO.C60_csucvector",
    "Verif.Props.IndexIO.C60_frequency_bytes",
    "Verif.Props.IndexIO.C60_frequency_bytes_built",
    "Verif.Props.IndexIO.C60_frequency_wide_partial",
    "Verif.Props.IndexIO.C60_frequency_wide_built_partial",
    "Verif.Props.IndexIO.C60_finding_frequency_keeps",
    "Verif.Props.IndexIO.C60_fmindex_raw",
    "Verif.Props.IndexIO.C60_fmindex_bytes",
    "Verif.Props.IndexIO.C60_fmindex_wide_partial",
    "Verif.Props.IndexIO.C60_fmindex_built",
    "Verif.Props.IndexIO.C60_load_never_undefined",
    "Verif.Props.IndexIO.C60_finding_not_validated"
   ],
   "note": "full for succinct vectors, wavelet matrices, CSucVector, byte frequency tables and FM-indexes with raw or byte characters; 16-bit frequency tables (and indexes using them) only when loaded into an empty table: finding: the map is not cleared before loading. Finding: loaded sizes are not checked against the data"
  },
  {
   "property": "C61",
   "status": "proved",
   "theorems": [
    "Verif.Props.UString.C61_well_formed",
    "Verif.Props.UString.C61_strict",
    "Verif.Props.UString.C61_ignoring",
    "Verif.Props.UString.C61_finding_swallows"
   ],
   "note": "full; finding: a skipped piece may contain whole well-formed characters (a lone lead byte swallows the letters after it)"
  },
  {
   "property": "C62",
   "status": "partial",
   "theorems": [
    "Verif.Props.UString.C62_append_text",
    "Verif.Props.UString.C62_assign_text",
    "Verif.Props.UString.C62_finding_failed_assign",
    "Verif.Props.UString.C62_edit",
    "Verif.Props.UString.C62_bad_position",
    "Verif.Props.UString.C62_assign_partial",
    "Verif.Props.UString.C62_finding_self_assign",
    "Verif.Props.UString.C62_pop_back",
    "Verif.Props.UString.C62_operators",
    "Verif.Props.UString.C62_byte_order",
    "Verif.Props.UString.C62_text",
    "Verif.Props.UString.C62_text_bad",
    "Verif.Props.UString.C62_utf16_order_differs"
   ],
   "note": "full except self-assignment, which is false (finding: s = s empties s); an assignment of ill-formed text destroys the old content before it throws. Members of std::basic_string are modelled by their documented meaning; the moves are in C133"
  },
  {
   "property": "C63",
   "status": "partial",
   "theorems": [
    "Verif.Props.Process.C63_reports_partial",
    "Verif.Props.Process.C63_returns",
    "Verif.Props.Process.C63_exec_failure_unreported",
    "Verif.Props.Process.C63_closed_stdio_unreported",
    "Verif.Props.Process.C63_finding_failed_child_not_waited",
    "Verif.Props.Process.C63_descriptors"
   ],
   "note": "truth of the answer only if the indeterminate limit maxFd spares the pipe and the pipe is not a standard descriptor; otherwise refuted (findings). Termination and the descriptors of the program: full"
  },
  {
   "property": "C64",
   "status": "proved",
   "theorems": [
    "Verif.Props.Process.C64_isAlive",
    "Verif.Props.Process.C64_invalid"
   ],
   "note": "full; later calls get code 0 (finding)"
  },
  {
   "property": "C65",
   "status": "partial",
   "theorems": [
    "Verif.Props.Process.C65_cmdLine_partial",
    "Verif.Props.Process.C65_cmdLine_iff",
    "Verif.Props.Process.C65_runArgs"
   ],
   "note": "exactly characterised: an argument arrives iff no backslash stands directly before a quotation mark or at its end"
  },
  {
   "property": "C66",
   "status": "proved",
   "theorems": [
    "Verif.Props.Period.C66_xorshift_period",
    "Verif.Props.Period.C66_plus_period",
    "Verif.Props.Period.C66_xoroshiro_period",
    "Verif.Props.Period.C66_xorshift_reaches_all",
    "Verif.Props.Period.C66_others_reach_all",
    "Verif.Props.Period.C66_xorshift_output_period"
   ],
   "note": "Full, for the three generators: exact order of the step function, all non-zero states on one cycle, exact period of the numbers XorShift gives."
  },
  {
   "property": "C67",
   "status": "proved",
   "theorems": [
    "Verif.Props.Zlib.C67_compress",
    "Verif.Props.Zlib.C67_too_large",
    "Verif.Props.Zlib.C67_too_large_read",
    "Verif.Props.Zlib.C67_write_after_flush",
    "Verif.Props.Zlib.C67_decompress",
    "Verif.Props.Zlib.C67_decompress_all",
    "Verif.Props.Zlib.C67_read",
    "Verif.Props.Zlib.C67_truncated",
    "Verif.Props.Zlib.C67_roundtrip",
    "Verif.Props.Zlib.C67_finding_trailer_ignored"
   ],
   "note": "Full, for every zlib that keeps the promises in Spec/Zlib (progress, finite output, correctness at Z_STREAM_END); the promises are met by the codec of Proof/ZlibToy. Finding: the gzip trailer is ignored."
  },
  {
   "property": "C68",
   "status": "proved",
   "theorems": [
    "Verif.Props.CondVar.C68_mutex",
    "Verif.Props.CondVar.C68_counter",
    "Verif.Props.CondVar.C68_notifyAll_returns",
    "Verif.Props.CondVar.C68_notifyAll_wakes_all",
    "Verif.Props.CondVar.C68_notifyAll_begins",
    "Verif.Props.CondVar.C68_notifyOne",
    "Verif.Props.CondVar.C68_no_wakeup_unnotified",
    "Verif.Props.CondVar.C68_semaphore",
    "Verif.Props.CondVar.C68_finding_notifyAll_without_mutex_hangs",
    "Verif.Props.CondVar.C68_finding_stolen_wakeup",
    "Verif.Props.CondVar.C68_finding_spurious_wakeup"
   ],
   "note": "all schedules, up to 2^30 threads; notifyAll with the mutex held. The findings show what goes wrong without the mutex, and that wake-ups can be stolen or left over."
  },
  {
   "property": "C69",
   "status": "proved",
   "theorems": [
    "Verif.Props.Plsi.C69_user_id",
    "Verif.Props.Plsi.C69_item_id",
    "Verif.Props.Plsi.C69_set_item",
    "Verif.Props.Plsi.C69_finding_set_twice",
    "Verif.Props.Plsi.C69_start",
    "Verif.Props.Plsi.C69_step",
    "Verif.Props.Plsi.C69_step_returns",
    "Verif.Props.Plsi.C69_monotone",
    "Verif.Props.Plsi.C69_marginals",
    "Verif.Props.Plsi.C69_bounded",
    "Verif.Props.Plsi.C69_learning",
    "Verif.Props.Plsi.C69_loop_ends",
    "Verif.Props.Plsi.C69_search_items",
    "Verif.Props.Plsi.C69_similar_items",
    "Verif.Props.Plsi.C69_perplexity",
    "Verif.Props.Plsi.C69_finding_unknown_user",
    "Verif.Props.Plsi.C69_finding_unknown_item",
    "Verif.Props.Plsi.C69_finding_start_twice",
    "Verif.Props.Plsi.C69_finding_no_data"
   ],
   "note": "exact real arithmetic instead of double. Where the code would produce infinities or NaN the model stops, and the theorems show that this does not happen."
  },
  {
   "property": "C70",
   "status": "proved",
   "theorems": [
    "Verif.Props.NlpRandom.C70_uniform",
    "Verif.Props.NlpRandom.C70_reseed",
    "Verif.Props.NlpRandom.C70_normal_range",
    "Verif.Props.NlpRandom.C70_finding_seed_one",
    "Verif.Props.NlpRandom.C70_finding_seed_ignored"
   ],
   "note": "exact real arithmetic; the fraction n/2^53 itself is exact in a double."
  },
  {
   "property": "C71",
   "status": "proved",
   "theorems": [
    "Verif.Props.TestRun.C71_run",
    "Verif.Props.TestRun.C71_exit_code",
    "Verif.Props.TestRun.C71_init_throws",
    "Verif.Props.TestRun.C71_assert",
    "Verif.Props.TestRun.C71_equal",
    "Verif.Props.TestRun.C71_equal_array",
    "Verif.Props.TestRun.C71_exception",
    "Verif.Props.TestRun.C71_exception_message",
    "Verif.Props.TestRun.C71_no_exception",
    "Verif.Props.TestRun.C71_diagnostics",
    "Verif.Props.TestRun.C71_array_diagnostics",
    "Verif.Props.TestRun.C71_fail",
    "Verif.Props.TestRun.C71_base_name",
    "Verif.Props.TestRun.C71_equal_size_int",
    "Verif.Props.TestRun.C71_finding_negative_int",
    "Verif.Props.TestRun.C71_finding_float_bits",
    "Verif.Props.TestRun.C71_finding_near_unsigned",
    "Verif.Props.TestRun.C71_finding_evaluated_twice"
   ],
   "note": "A test function is any terminating function; tests that do not end are outside of the model."
  },
  {
   "property": "C72",
   "status": "proved",
   "theorems": [
    "Verif.Props.Log.C72_files",
    "Verif.Props.Log.C72_put",
    "Verif.Props.Log.C72_same_as_put",
    "Verif.Props.Log.C72_never_throws",
    "Verif.Props.Log.C72_redirect",
    "Verif.Props.Log.C72_open_fails",
    "Verif.Props.Log.C72_failure_noticed",
    "Verif.Props.Log.C72_finding_leak",
    "Verif.Props.Log.C72_finding_silent",
    "Verif.Props.Log.C72_finding_equal_priority",
    "Verif.Props.Log.C72_finding_nul"
   ],
   "note": "The C library is assumed to return from fopen a FILE* that is not open."
  },
  {
   "property": "C73",
   "status": "proved",
   "theorems": [
    "Verif.Props.Svd.C73_unit_matrix",
    "Verif.Props.Svd.C73_groups_balanced",
    "Verif.Props.Svd.C73_compress",
    "Verif.Props.Svd.C73_orthonormalize",
    "Verif.Props.Svd.C73_orthonormalize_fixed",
    "Verif.Props.Svd.C73_rank",
    "Verif.Props.Svd.C73_product",
    "Verif.Props.Svd.C73_all_rows",
    "Verif.Props.Svd.C73_exact",
    "Verif.Props.Svd.C73_finding_lost",
    "Verif.Props.Svd.C73_finding_overflow"
   ],
   "note": "Proved over the reals for every correct JacobiSVD; rounding is outside. The comment's t(U) U = I is false for some matrices (findings)."
  },
  {
   "property": "C74",
   "status": "proved",
   "theorems": [
    "Verif.Props.V128.C74_shr",
    "Verif.Props.V128.C74_shl",
    "Verif.Props.V128.C74_rotr",
    "Verif.Props.V128.C74_rotl",
    "Verif.Props.V128.C74_rot_inverse",
    "Verif.Props.V128.C74_swap",
    "Verif.Props.V128.C74_copy",
    "Verif.Props.V128.C74_finding_rotr_loses"
   ],
   "note": "The functions are proved for all values; the shifts are modelled with por for the missing operator|."
  },
  {
   "property": "C75",
   "status": "proved",
   "theorems": [
    "Verif.Props.Json.C75_step",
    "Verif.Props.Json.C75_history",
    "Verif.Props.Json.C75_defined",
    "Verif.Props.Json.C75_throws",
    "Verif.Props.Json.C75_start",
    "Verif.Props.Json.C75_finding_swap_cycle"
   ],
   "note": "Refinement proved for all programs over the listed statements; swap only between variables (swap with an own element is a finding)."
  },
  {
   "property": "C76",
   "status": "proved",
   "theorems": [
    "Verif.Props.Mmap.C76_construct",
    "Verif.Props.Mmap.C76_life",
    "Verif.Props.Mmap.C76_life_windows",
    "Verif.Props.Mmap.C76_reason_first",
    "Verif.Props.Mmap.C76_windows",
    "Verif.Props.Mmap.C76_finding_empty"
   ],
   "note": "Proved for every combination of answers on both systems."
  },
  {
   "property": "C77",
   "status": "proved",
   "theorems": [
    "Verif.Props.Ssl.C77_write",
    "Verif.Props.Ssl.C77_write_all",
    "Verif.Props.Ssl.C77_readSome",
    "Verif.Props.Ssl.C77_read",
    "Verif.Props.Ssl.C77_read_all",
    "Verif.Props.Ssl.C77_finding_read_hangs",
    "Verif.Props.Ssl.C77_life",
    "Verif.Props.Ssl.C77_construct_fails",
    "Verif.Props.Ssl.C77_connect",
    "Verif.Props.Ssl.C77_close",
    "Verif.Props.Ssl.C77_finding_close_throws",
    "Verif.Props.Ssl.C77_finding_failed_connect",
    "Verif.Props.Ssl.C77_finding_second_connection"
   ],
   "note": "Proved; five deviations are stated as findings (read hangs on an early close, close throws when SSL_shutdown returns 0, ...)."
  },
  {
   "property": "C78",
   "status": "partial",
   "theorems": [
    "Verif.Props.Crypto.C78_names",
    "Verif.Props.Crypto.C78_not_offered",
    "Verif.Props.Crypto.C78_history",
    "Verif.Props.Crypto.C78_static",
    "Verif.Props.Crypto.C78_unknown",
    "Verif.Props.Crypto.C78_hmac_partial",
    "Verif.Props.Crypto.C78_hmac_failure",
    "Verif.Props.Crypto.C78_finding_hmac_key",
    "Verif.Props.Crypto.C78_setup_partial",
    "Verif.Props.Crypto.C78_setup_fails",
    "Verif.Props.Crypto.C78_cipher_kept",
    "Verif.Props.Crypto.C78_cipher_names",
    "Verif.Props.Crypto.C78_cipher_unknown",
    "Verif.Props.Crypto.C78_update",
    "Verif.Props.Crypto.C78_finding_iv",
    "Verif.Props.Crypto.C78_finding_key",
    "Verif.Props.Crypto.C78_owner_partial",
    "Verif.Props.Crypto.C78_finding_copy",
    "Verif.Props.Crypto.C78_finding_cipher_leak"
   ],
   "note": "Proved over an OpenSSL that keeps its documented promises. Partial: HMAC and cipher keys below 2^31 bytes, vectors of sufficient length, objects that are not copied; outside of that the claim is false of the code (C78_finding_hmac_key, _iv, _key, _copy, _cipher_leak)."
  },
  {
   "property": "C79",
   "status": "proved",
   "theorems": [
    "Verif.Props.SocketAddr.C79_same",
    "Verif.Props.SocketAddr.C79_equivalence",
    "Verif.Props.SocketAddr.C79_port",
    "Verif.Props.SocketAddr.C79_verify",
    "Verif.Props.SocketAddr.C79_set",
    "Verif.Props.SocketAddr.C79_set_returns",
    "Verif.Props.SocketAddr.C79_set_frees",
    "Verif.Props.SocketAddr.C79_finding_leak",
    "Verif.Props.SocketAddr.C79_toStr",
    "Verif.Props.SocketAddr.C79_no_ub"
   ],
   "note": "Proved; the leak with forceIpV6 is a finding."
  },
  {
   "property": "C80",
   "status": "partial",
   "theorems": [
    "Verif.Props.SocketSetup.C80_query",
    "Verif.Props.SocketSetup.C80_query_number",
    "Verif.Props.SocketSetup.C80_time",
    "Verif.Props.SocketSetup.C80_connect",
    "Verif.Props.SocketSetup.C80_connect_keeps",
    "Verif.Props.SocketSetup.C80_finding_failed_connect",
    "Verif.Props.SocketSetup.C80_finding_large_descriptor",
    "Verif.Props.SocketSetup.C80_bind_partial",
    "Verif.Props.SocketSetup.C80_bind_keeps",
    "Verif.Props.SocketSetup.C80_bind_returns",
    "Verif.Props.SocketSetup.C80_finding_no_mode",
    "Verif.Props.SocketSetup.C80_accept",
    "Verif.Props.SocketSetup.C80_waitForClose",
    "Verif.Props.SocketSetup.C80_timeout",
    "Verif.Props.SocketSetup.C80_timeout_exact",
    "Verif.Props.SocketSetup.C80_timeout_negative",
    "Verif.Props.SocketSetup.C80_finding_linger"
   ],
   "note": "Partial because two clauses are false of the code: bind with mode 0 listens on IPv4 (C80_finding_no_mode) and setLinger passes the bytes of a pointer (C80_finding_linger). The rest is proved."
  },
  {
   "property": "C81",
   "status": "proved",
   "theorems": [
    "Verif.Props.Exception.C81_text",
    "Verif.Props.Exception.C81_trace",
    "Verif.Props.Exception.C81_finding_nul",
    "Verif.Props.Exception.C81_makeString",
    "Verif.Props.Exception.C81_errorNo",
    "Verif.Props.Exception.C81_wide",
    "Verif.Props.Exception.C81_finding_backslash"
   ],
   "note": "Texts of numbers and of the system are parameters with their documented format."
  },
  {
   "property": "C82",
   "status": "proved",
   "theorems": [
    "Verif.Props.Exception.C82_symbol",
    "Verif.Props.Exception.C82_unchanged",
    "Verif.Props.Exception.C82_lines",
    "Verif.Props.Exception.C82_addresses",
    "Verif.Props.Exception.C82_addresses_text",
    "Verif.Props.Exception.C82_finding_path"
   ],
   "note": "Without bfd."
  },
  {
   "property": "C83",
   "status": "proved",
   "theorems": [
    "Verif.Props.SysUtil.C83_clock",
    "Verif.Props.SysUtil.C83_finding_running",
    "Verif.Props.SysUtil.C83_bench"
   ],
   "note": "Full."
  },
  {
   "property": "C84",
   "status": "proved",
   "theorems": [
    "Verif.Props.SysUtil.C84_sleep",
    "Verif.Props.SysUtil.C84_request",
    "Verif.Props.SysUtil.C84_valid",
    "Verif.Props.SysUtil.C84_negative",
    "Verif.Props.SysUtil.C84_begin",
    "Verif.Props.SysUtil.C84_finding_destroy"
   ],
   "note": "Full, given what nanosleep promises."
  },
  {
   "property": "C85",
   "status": "proved",
   "theorems": [
    "Verif.Props.SysUtil.C85_tls",
    "Verif.Props.SysUtil.C85_finding_copy"
   ],
   "note": "For objects that are not copied; copying is a finding."
  },
  {
   "property": "C86",
   "status": "partial",
   "theorems": [
    "Verif.Props.SysUtil.C86_env",
    "Verif.Props.SysUtil.C86_env_windows_partial",
    "Verif.Props.SysUtil.C86_finding_long",
    "Verif.Props.SysUtil.C86_format",
    "Verif.Props.SysUtil.C86_finding_va_end",
    "Verif.Props.SysUtil.C86_signal",
    "Verif.Props.SysUtil.C86_installed"
   ],
   "note": "Windows: values up to 4095 bytes (longer ones count as unset, a finding)."
  },
  {
   "property": "C87",
   "status": "partial",
   "theorems": [
    "Verif.Props.FileOps.C87_mode",
    "Verif.Props.FileOps.C87_open",
    "Verif.Props.FileOps.C87_life_partial",
    "Verif.Props.FileOps.C87_adopt",
    "Verif.Props.FileOps.C87_adopt_closed",
    "Verif.Props.FileOps.C87_finding_sync",
    "Verif.Props.FileOps.C87_finding_append",
    "Verif.Props.FileOps.C87_sync"
   ],
   "note": "C87_life_partial: every descriptor is closed unless fdatasync fails in the destructor of a file opened for writing, or the constructor for appending cannot seek; there the claim is false (findings)."
  },
  {
   "property": "C88",
   "status": "proved",
   "theorems": [
    "Verif.Props.FileOps.C88_seek",
    "Verif.Props.FileOps.C88_overwrite",
    "Verif.Props.FileOps.C88_open_append",
    "Verif.Props.FileOps.C88_append",
    "Verif.Props.FileOps.C88_read",
    "Verif.Props.FileOps.C88_roundtrip",
    "Verif.Props.FileOps.C88_direction"
   ],
   "note": "On a model of files and descriptors as POSIX describes them; transfers move all their bytes (C54)."
  },
  {
   "property": "C89",
   "status": "proved",
   "theorems": [
    "Verif.Props.FileOps.C89_list",
    "Verif.Props.FileOps.C89_closed",
    "Verif.Props.FileOps.C89_finding_unknown",
    "Verif.Props.FileOps.C89_exist",
    "Verif.Props.FileOps.C89_rename",
    "Verif.Props.FileOps.C89_finding_backslash",
    "Verif.Props.FileOps.C89_finding_root",
    "Verif.Props.FileOps.C89_exe",
    "Verif.Props.FileOps.C89_finding_long"
   ],
   "note": "Full for Linux, with the exceptions named in the statement."
  },
  {
   "property": "C90",
   "status": "proved",
   "theorems": [
    "Verif.Props.Sais.C90_sorts",
    "Verif.Props.Sais.C90_or_no_memory",
    "Verif.Props.Sais.C90_bad_arguments",
    "Verif.Props.Sais.C90_frame",
    "Verif.Props.Sais.C90_unique"
   ],
   "note": "All texts, every recursion depth, any contents of the arrays. Values are mathematical integers of absolute value at most n."
  },
  {
   "property": "C91",
   "status": "proved",
   "theorems": [
    "Verif.Props.Bwt.C91_transforms",
    "Verif.Props.Bwt.C91_or_no_memory",
    "Verif.Props.Bwt.C91_bad_arguments",
    "Verif.Props.Bwt.C91_unique",
    "Verif.Props.Bwt.C91_lossless"
   ],
   "note": "All texts, every recursion depth, any contents of the arrays."
  },
  {
   "property": "C92",
   "status": "partial",
   "theorems": [
    "Verif.Props.RandGen.C92_fills_partial",
    "Verif.Props.RandGen.C92_failure_reported",
    "Verif.Props.RandGen.C92_success_means_filled",
    "Verif.Props.RandGen.C92_not_opened",
    "Verif.Props.RandGen.C92_opened",
    "Verif.Props.RandGen.C92_get32",
    "Verif.Props.RandGen.C92_get64",
    "Verif.Props.RandGen.C92_sequence",
    "Verif.Props.RandGen.C92_uniform",
    "Verif.Props.RandGen.C92_shuffle",
    "Verif.Props.RandGen.C92_finding_overrun",
    "Verif.Props.RandGen.C92_finding_refused",
    "Verif.Props.RandGen.C92_finding_overflow",
    "Verif.Props.RandGen.C92_windows_fills",
    "Verif.Props.RandGen.C92_windows_failure",
    "Verif.Props.RandGen.C92_finding_windows_truncates"
   ],
   "note": "All sizes below 2^31 bytes, any device; success is never reported for an unfilled array of any size. Not proved because false: larger requests (three findings)."
  },
  {
   "property": "C93",
   "status": "proved",
   "theorems": [
    "Verif.Props.Mecab.C93_words",
    "Verif.Props.Mecab.C93_wakati",
    "Verif.Props.Mecab.C93_failure",
    "Verif.Props.Mecab.C93_c_string",
    "Verif.Props.Mecab.C93_finding_empty_part",
    "Verif.Props.Mecab.C93_finding_line_feed",
    "Verif.Props.Mecab.C93_walk",
    "Verif.Props.Mecab.C93_isNoun",
    "Verif.Props.Mecab.C93_finding_short_noun",
    "Verif.Props.Mecab.C93_nothing_set",
    "Verif.Props.Mecab.C93_lifetime",
    "Verif.Props.Mecab.C93_finding_copy"
   ],
   "note": "All texts and answers of MeCab. The deviations are findings."
  },
  {
   "property": "C94",
   "status": "partial",
   "theorems": [
    "Verif.Props.RegexChar.C94_classes",
    "Verif.Props.RegexChar.C94_names_partial",
    "Verif.Props.RegexChar.C94_names_known",
    "Verif.Props.RegexChar.C94_finding_alpha",
    "Verif.Props.RegexChar.C94_finding_alnum",
    "Verif.Props.RegexChar.C94_finding_word",
    "Verif.Props.RegexChar.C94_is_array",
    "Verif.Props.RegexChar.C94_finding_is_array",
    "Verif.Props.RegexChar.C94_scan_is",
    "Verif.Props.RegexChar.C94_scan_not",
    "Verif.Props.RegexChar.C94_case",
    "Verif.Props.RegexChar.C94_case_array",
    "Verif.Props.RegexChar.C94_value",
    "Verif.Props.RegexChar.C94_in",
    "Verif.Props.RegexChar.C94_narrow",
    "Verif.Props.RegexChar.C94_finding_narrow"
   ],
   "note": "All 2^32 characters and the nine masks documented in the header. Not proved because false: the class names alpha, alnum and w (findings)."
  },
  {
   "property": "C95",
   "status": "proved",
   "theorems": [
    "Verif.Props.Atomic.C95_meaning",
    "Verif.Props.Atomic.C95_counter",
    "Verif.Props.Atomic.C95_tickets",
    "Verif.Props.Atomic.C95_handover",
    "Verif.Props.Atomic.C95_one_winner",
    "Verif.Props.Atomic.C95_retry_loop",
    "Verif.Props.Atomic.C95_spin_lock",
    "Verif.Props.Atomic.C95_spin_lock_free"
   ],
   "note": "All word sizes, thread counts, programs and interleavings of sequentially consistent memory."
  },
  {
   "property": "C96",
   "status": "proved",
   "theorems": [
    "Verif.Props.AutoLock.C96_mutual_exclusion",
    "Verif.Props.AutoLock.C96_isolation",
    "Verif.Props.AutoLock.C96_updates_are_serial",
    "Verif.Props.AutoLock.C96_no_lost_update",
    "Verif.Props.AutoLock.C96_counter",
    "Verif.Props.AutoLock.C96_released",
    "Verif.Props.AutoLock.C96_unlock_by_owner",
    "Verif.Props.AutoLock.C96_no_deadlock",
    "Verif.Props.AutoLock.C96_ends",
    "Verif.Props.AutoLock.C96_finding_nested_hangs",
    "Verif.Props.AutoLock.C96_nested_recursive",
    "Verif.Props.AutoLock.C96_finding_copy"
   ],
   "note": "All programs that follow the rules of Spec/AutoLock, all interleavings of sequentially consistent memory."
  },
  {
   "property": "C97",
   "status": "partial",
   "theorems": [
    "Verif.Props.ConfigGet.C97_unsigned",
    "Verif.Props.ConfigGet.C97_signed_partial",
    "Verif.Props.ConfigGet.C97_string",
    "Verif.Props.ConfigGet.C97_never_undefined",
    "Verif.Props.ConfigGet.C97_getSection",
    "Verif.Props.ConfigGet.C97_roundtrip_signed",
    "Verif.Props.ConfigGet.C97_roundtrip_unsigned",
    "Verif.Props.ConfigGet.C97_finding_blank",
    "Verif.Props.ConfigGet.C97_finding_min_then_more",
    "Verif.Props.ConfigGet.C97_finding_nul"
   ],
   "note": "All sections, keys and types. Not proved because false: signed values that are the minimum of the type followed by more (finding)."
  },
  {
   "property": "C98",
   "status": "proved",
   "theorems": [
    "Verif.Props.SparseIO.C98_roundtrip",
    "Verif.Props.SparseIO.C98_roundtrip_eq",
    "Verif.Props.SparseIO.C98_any_bytes",
    "Verif.Props.SparseIO.C98_set",
    "Verif.Props.SparseIO.C98_set_new",
    "Verif.Props.SparseIO.C98_finding_set_appends",
    "Verif.Props.SparseIO.C98_set_too_large",
    "Verif.Props.SparseIO.C98_norm"
   ],
   "note": "All histories, both tables, all value types of the serializer model. Vectors of 2^30 - 1 entries and more are outside the hypothesis."
  },
  {
   "property": "C99",
   "status": "proved",
   "theorems": [
    "Verif.Props.OptionMsg.C99_base_name",
    "Verif.Props.OptionMsg.C99_isSet",
    "Verif.Props.OptionMsg.C99_usage",
    "Verif.Props.OptionMsg.C99_own_usage",
    "Verif.Props.OptionMsg.C99_dump",
    "Verif.Props.OptionMsg.C99_finding_null",
    "Verif.Props.OptionMsg.C99_finding_copy_null",
    "Verif.Props.OptionMsg.C99_finding_copy_forgets",
    "Verif.Props.OptionMsg.C99_finding_append_forgets"
   ],
   "note": "isSet, dump and usage for all declarations and command lines; base name; the copy constructor loses the flags (findings)."
  },
  {
   "property": "C100",
   "status": "proved",
   "theorems": [
    "Verif.Props.SvdText.C100_dense",
    "Verif.Props.SvdText.C100_vector",
    "Verif.Props.SvdText.C100_sparse",
    "Verif.Props.SvdText.C100_sparse_as_dense",
    "Verif.Props.SvdText.C100_any_matrix",
    "Verif.Props.SvdText.C100_any_sparse",
    "Verif.Props.SvdText.C100_finding_blank",
    "Verif.Props.SvdText.C100_signs",
    "Verif.Props.SvdText.C100_finding_garbage",
    "Verif.Props.SvdText.C100_finding_order",
    "Verif.Props.SvdText.C100_finding_sparse_vector",
    "Verif.Props.SvdText.C100_finding_columns",
    "Verif.Props.SvdText.C100_finding_column_major"
   ],
   "note": "Round trips of dense, sparse and vector files, shape of whatever is loaded from any file; six findings. Reading and printing of a single floating-point number is a parameter."
  },
  {
   "property": "C101",
   "status": "proved",
   "theorems": [
    "Verif.Props.TfIdfTerm.C101_term",
    "Verif.Props.TfIdfTerm.C101_pipeline",
    "Verif.Props.TfIdfTerm.C101_no_file",
    "Verif.Props.TfIdfTerm.C101_finding_twice",
    "Verif.Props.TfIdfTerm.C101_finding_rate",
    "Verif.Props.TfIdfTerm.C101_finding_line",
    "Verif.Props.TfIdfTerm.C101_finding_tab"
   ],
   "note": "Selection by term for every outcome of partial_sort, and the way through the keyword file into TfIdf; four findings."
  },
  {
   "property": "C102",
   "status": "proved",
   "theorems": [
    "Verif.Props.EventPipe.C102_pipe_refines",
    "Verif.Props.EventPipe.C102_pipe_balance",
    "Verif.Props.EventPipe.C102_pipe_no_wait",
    "Verif.Props.EventPipe.C102_pipe_live",
    "Verif.Props.EventPipe.C102_windows_refines",
    "Verif.Props.EventPipe.C102_finding_versions",
    "Verif.Props.EventPipe.C102_finding_signal",
    "Verif.Props.EventPipe.C102_finding_blocks"
   ],
   "note": "Pipe version refines a counting semaphore, Windows version an auto-reset event; liveness under strong fairness; three findings."
  },
  {
   "property": "C103",
   "status": "proved",
   "theorems": [
    "Verif.Props.Tls.C103_get",
    "Verif.Props.Tls.C103_safe",
    "Verif.Props.Tls.C103_set",
    "Verif.Props.Tls.C103_no_leak"
   ],
   "note": "All histories of any number of threads and objects; no undefined use of keys, no leak."
  },
  {
   "property": "C104",
   "status": "proved",
   "theorems": [
    "Verif.Props.Epoll.C104_waits",
    "Verif.Props.Epoll.C104_waits_unique",
    "Verif.Props.Epoll.C104_same",
    "Verif.Props.Epoll.C104_closed",
    "Verif.Props.Epoll.C104_refused",
    "Verif.Props.Epoll.C104_queryAccept",
    "Verif.Props.Epoll.C104_finding_zero",
    "Verif.Props.Epoll.C104_finding_negative",
    "Verif.Props.Epoll.C104_finding_throws",
    "Verif.Props.Epoll.C104_calls"
   ],
   "note": "Both versions in one world of times; three findings about times below one millisecond and an exception from a function named NoThrow."
  },
  {
   "property": "C105",
   "status": "proved",
   "theorems": [
    "Verif.Props.XmlHeap.C105_tree",
    "Verif.Props.XmlHeap.C105_no_leak",
    "Verif.Props.XmlHeap.C105_find",
    "Verif.Props.XmlHeap.C105_first_unique",
    "Verif.Props.XmlHeap.C105_finding_second_parse",
    "Verif.Props.XmlHeap.C105_finding_constructor",
    "Verif.Props.XmlHeap.C105_finding_get_unparsed",
    "Verif.Props.XmlHeap.C105_finding_null_child"
   ],
   "note": "Nodes as objects in memory with failing allocations; refines the tree of C28. Four findings about lost nodes and null pointers."
  },
  {
   "property": "C106",
   "status": "proved",
   "theorems": [
    "Verif.Props.ProcObj.C106_owned",
    "Verif.Props.ProcObj.C106_no_leak",
    "Verif.Props.ProcObj.C106_hand_over",
    "Verif.Props.ProcObj.C106_frame",
    "Verif.Props.ProcObj.C106_run_fails",
    "Verif.Props.ProcObj.C106_windows_code",
    "Verif.Props.ProcObj.C106_windows_killed",
    "Verif.Props.ProcObj.C106_finding_259",
    "Verif.Props.ProcObj.C106_finding_assign",
    "Verif.Props.ProcObj.C106_finding_stale_pid",
    "Verif.Props.ProcObj.C106_finding_zombie"
   ],
   "note": "Class Process over all operation sequences on both platforms; four findings."
  },
  {
   "property": "C107",
   "status": "proved",
   "theorems": [
    "Verif.Props.Bench.C107_bench",
    "Verif.Props.Bench.C107_average",
    "Verif.Props.Bench.C107_bench_c",
    "Verif.Props.Bench.C107_only_func_fails",
    "Verif.Props.Bench.C107_begin_end",
    "Verif.Props.Bench.C107_unit",
    "Verif.Props.Bench.C107_put",
    "Verif.Props.Bench.C107_finding_zero",
    "Verif.Props.Bench.C107_finding_wrap"
   ],
   "note": "All functions, clocks and register widths; rounding not modelled."
  },
  {
   "property": "C108",
   "status": "proved",
   "theorems": [
    "Verif.Props.Desymbol.C108_get_info",
    "Verif.Props.Desymbol.C108_finding_top_section",
    "Verif.Props.Desymbol.C108_find_addr",
    "Verif.Props.Desymbol.C108_decode",
    "Verif.Props.Desymbol.C108_oneline",
    "Verif.Props.Desymbol.C108_filter",
    "Verif.Props.Desymbol.C108_run",
    "Verif.Props.Desymbol.C108_bracket",
    "Verif.Props.Desymbol.C108_exception",
    "Verif.Props.Desymbol.C108_finding_rest_lost",
    "Verif.Props.Desymbol.C108_finding_nul"
   ],
   "note": "All inputs and section tables; the bfd library is a parameter."
  },
  {
   "property": "C109",
   "status": "partial",
   "theorems": [
    "Verif.Props.StrAlias.C109_append_other",
    "Verif.Props.StrAlias.C109_append_own_partial",
    "Verif.Props.StrAlias.C109_assign_other",
    "Verif.Props.StrAlias.C109_finding_assign_own",
    "Verif.Props.StrAlias.C109_replace"
   ],
   "note": "Partial because self-append and self-assign by iterators are wrong in the code; the exact boundary is proved."
  },
  {
   "property": "C110",
   "status": "proved",
   "theorems": [
    "Verif.Props.CsvFile.C110_file",
    "Verif.Props.CsvFile.C110_failure_stays",
    "Verif.Props.CsvFile.C110_unopenable",
    "Verif.Props.CsvFile.C110_enough_room",
    "Verif.Props.CsvFile.C110_unbuffered",
    "Verif.Props.CsvFile.C110_roundtrip",
    "Verif.Props.CsvFile.C110_finding_lost_silently",
    "Verif.Props.CsvFile.C110_finding_truncated",
    "Verif.Props.CsvFile.C110_finding_missing",
    "Verif.Props.CsvFile.C110_finding_cut_row"
   ],
   "note": "All rows, buffer policies and device sizes; std::ofstream is modelled by its contract."
  },
  {
   "property": "C111",
   "status": "proved",
   "theorems": [
    "Verif.Props.FmSample.C111_words",
    "Verif.Props.FmSample.C111_simple",
    "Verif.Props.FmSample.C111_search",
    "Verif.Props.FmSample.C111_same",
    "Verif.Props.FmSample.C111_recover",
    "Verif.Props.FmSample.C111_bad_skip",
    "Verif.Props.FmSample.C111_finding_all_bytes",
    "Verif.Props.FmSample.C111_finding_long"
   ],
   "note": "End to end: create, save, load, search, recover. Allocations of the suffix sorter are assumed to succeed (otherwise C16_no_memory_ignored)."
  },
  {
   "property": "C112",
   "status": "proved",
   "theorems": [
    "Verif.Props.FMindexC.C112_matrix",
    "Verif.Props.FMindexC.C112_raw_bytes",
    "Verif.Props.FMindexC.C112_coded_bytes",
    "Verif.Props.FMindexC.C112_coded_wide",
    "Verif.Props.FMindexC.C112_bad_skip",
    "Verif.Props.FMindexC.C112_sort_fails",
    "Verif.Props.FMindexC.C112_finding_rebuild"
   ],
   "note": "Allocations of the suffix sorter are assumed to succeed. The objects built are new ones."
  },
  {
   "property": "C113",
   "status": "proved",
   "theorems": [
    "Verif.Props.FMindexCIO.C113_vector",
    "Verif.Props.FMindexCIO.C113_matrix",
    "Verif.Props.FMindexCIO.C113_raw_bytes",
    "Verif.Props.FMindexCIO.C113_coded_bytes",
    "Verif.Props.FMindexCIO.C113_coded_wide",
    "Verif.Props.FMindexCIO.C113_load_never_undefined",
    "Verif.Props.FMindexCIO.C113_finding_rebuild"
   ],
   "note": "Allocations of the suffix sorter are assumed to succeed. For 16-bit characters the destination's frequency table is empty; otherwise the old characters stay (C60)."
  },
  {
   "property": "C114",
   "status": "proved",
   "theorems": [
    "Verif.Props.ZlibSmpl.C114_calls",
    "Verif.Props.ZlibSmpl.C114_uncompress_call",
    "Verif.Props.ZlibSmpl.C114_uncompress_refuses",
    "Verif.Props.ZlibSmpl.C114_args",
    "Verif.Props.ZlibSmpl.C114_never_undefined",
    "Verif.Props.ZlibSmpl.C114_no_input",
    "Verif.Props.ZlibSmpl.C114_compress",
    "Verif.Props.ZlibSmpl.C114_uncompress",
    "Verif.Props.ZlibSmpl.C114_roundtrip",
    "Verif.Props.ZlibSmpl.C114_finding_ratio",
    "Verif.Props.ZlibSmpl.C114_finding_write"
   ],
   "note": "zlib is a parameter constrained by the promises of zlib.h; a concrete codec shows the promises are satisfiable."
  },
  {
   "property": "C115",
   "status": "proved",
   "theorems": [
    "Verif.Props.CSucSmpl.C115_check",
    "Verif.Props.CSucSmpl.C115_no_difference",
    "Verif.Props.CSucSmpl.C115_program"
   ],
   "note": "Files between 2^29 - 2176 and 2^29 bytes are not covered (C18_finding_endless lies there)."
  },
  {
   "property": "C116",
   "status": "proved",
   "theorems": [
    "Verif.Props.Option2Smpl.C116_right",
    "Verif.Props.Option2Smpl.C116_only_right",
    "Verif.Props.Option2Smpl.C116_only_right_int",
    "Verif.Props.Option2Smpl.C116_never_undefined",
    "Verif.Props.Option2Smpl.C116_finding_own_name"
   ],
   "note": "For every conversion; C116_only_right_int uses that the conversion to int refuses the three command words."
  },
  {
   "property": "C117",
   "status": "proved",
   "theorems": [
    "Verif.Props.SocketSmpl.C117_run",
    "Verif.Props.SocketSmpl.C117_else",
    "Verif.Props.SocketSmpl.C117_listens",
    "Verif.Props.SocketSmpl.C117_finding_mode0",
    "Verif.Props.SocketSmpl.C117_switch",
    "Verif.Props.SocketSmpl.C117_finding_bad_mode",
    "Verif.Props.SocketSmpl.C117_finding_overflow",
    "Verif.Props.SocketSmpl.C117_finding_default"
   ],
   "note": "The theorem on the modes leaves out -m 0, which is a finding; everything else is for every command line of plain texts."
  },
  {
   "property": "C118",
   "status": "proved",
   "theorems": [
    "Verif.Props.SerStream.C118_load",
    "Verif.Props.SerStream.C118_truncated",
    "Verif.Props.SerStream.C118_never_undefined",
    "Verif.Props.SerStream.C118_save",
    "Verif.Props.SerStream.C118_memory_input",
    "Verif.Props.SerStream.C118_string_input",
    "Verif.Props.SerStream.C118_istream",
    "Verif.Props.SerStream.C118_sample_input",
    "Verif.Props.SerStream.C118_finding_sample_end",
    "Verif.Props.SerStream.C118_device",
    "Verif.Props.SerStream.C118_device_never_undefined",
    "Verif.Props.SerStream.C118_inflate",
    "Verif.Props.SerStream.C118_compressed",
    "Verif.Props.SerStream.C118_string_output",
    "Verif.Props.SerStream.C118_memory_output",
    "Verif.Props.SerStream.C118_memory_full",
    "Verif.Props.SerStream.C118_file_output",
    "Verif.Props.SerStream.C118_file_never_undefined",
    "Verif.Props.SerStream.C118_memory_roundtrip",
    "Verif.Props.SerStream.C118_file_roundtrip"
   ],
   "note": "For ZlibDecompressor the object takes less than 2 GiB, since one readSome of 2 GiB throws (C67_too_large_read). For sets and maps the old value is empty, as in C20."
  },
  {
   "property": "C119",
   "status": "proved",
   "theorems": [
    "Verif.Props.Select8Gen.C119_select8",
    "Verif.Props.Select8Gen.C119_header",
    "Verif.Props.Select8Gen.C119_output"
   ],
   "note": "Complete for the modelled program."
  },
  {
   "property": "C120",
   "status": "proved",
   "theorems": [
    "Verif.Props.WmBench.C120_naive",
    "Verif.Props.WmBench.C120_agree",
    "Verif.Props.WmBench.C120_check",
    "Verif.Props.WmBench.C120_printed",
    "Verif.Props.WmBench.C120_adds",
    "Verif.Props.WmBench.C120_run_on",
    "Verif.Props.WmBench.C120_main",
    "Verif.Props.WmBench.C120_args",
    "Verif.Props.WmBench.C120_number",
    "Verif.Props.WmBench.C120_too_long",
    "Verif.Props.WmBench.C120_finding_shift"
   ],
   "note": "The bound 2^32/7 comes from rankLt (C14_rankLt_overflow)."
  },
  {
   "property": "C121",
   "status": "proved",
   "theorems": [
    "Verif.Props.PlsiSmpl.C121_load",
    "Verif.Props.PlsiSmpl.C121_file",
    "Verif.Props.PlsiSmpl.C121_finding_blank_line",
    "Verif.Props.PlsiSmpl.C121_not_a_number",
    "Verif.Props.PlsiSmpl.C121_finding_item_twice",
    "Verif.Props.PlsiSmpl.C121_start",
    "Verif.Props.PlsiSmpl.C121_learn",
    "Verif.Props.PlsiSmpl.C121_finding_beta_unused",
    "Verif.Props.PlsiSmpl.C121_questions",
    "Verif.Props.PlsiSmpl.C121_finding_unknown",
    "Verif.Props.PlsiSmpl.C121_session",
    "Verif.Props.PlsiSmpl.C121_args",
    "Verif.Props.PlsiSmpl.C121_usage"
   ],
   "note": "Complete for the modelled program; real arithmetic as in C69."
  },
  {
   "property": "C122",
   "status": "proved",
   "theorems": [
    "Verif.Props.SvdSmpl.C122_args",
    "Verif.Props.SvdSmpl.C122_finding_last_r",
    "Verif.Props.SvdSmpl.C122_finding_rank_word",
    "Verif.Props.SvdSmpl.C122_success",
    "Verif.Props.SvdSmpl.C122_finding_overwrites",
    "Verif.Props.SvdSmpl.C122_usage",
    "Verif.Props.SvdSmpl.C122_finding_status",
    "Verif.Props.SvdSmpl.C122_finding_rank_zero",
    "Verif.Props.SvdSmpl.C122_finding_input"
   ],
   "note": "Complete for the modelled program; ComputeSVD is a parameter with the sizes proved in C73."
  },
  {
   "property": "C123",
   "status": "proved",
   "theorems": [
    "Verif.Props.SslSmpl.C123_session",
    "Verif.Props.SslSmpl.C123_text",
    "Verif.Props.SslSmpl.C123_ends",
    "Verif.Props.SslSmpl.C123_no_connection",
    "Verif.Props.SslSmpl.C123_main",
    "Verif.Props.SslSmpl.C123_finding_nul",
    "Verif.Props.SslSmpl.C123_finding_total"
   ],
   "note": "Complete for the modelled program."
  },
  {
   "property": "C124",
   "status": "proved",
   "theorems": [
    "Verif.Props.MecabSmpl.C124_words",
    "Verif.Props.MecabSmpl.C124_errors",
    "Verif.Props.MecabSmpl.C124_released",
    "Verif.Props.MecabSmpl.C124_finding_empty",
    "Verif.Props.MecabSmpl.C124_finding_status"
   ],
   "note": "Complete for the modelled program (Linux)."
  },
  {
   "property": "C125",
   "status": "proved",
   "theorems": [
    "Verif.Props.UStream.C125_lines",
    "Verif.Props.UStream.C125_bad_line",
    "Verif.Props.UStream.C125_roundtrip",
    "Verif.Props.UStream.C125_words",
    "Verif.Props.UStream.C125_valid",
    "Verif.Props.UStream.C125_valid_scalars",
    "Verif.Props.UStream.C125_finding_cleared",
    "Verif.Props.UStream.C125_finding_delimiter"
   ],
   "note": "Complete for the modelled functions; the standard streams are part of the model."
  },
  {
   "property": "C126",
   "status": "proved",
   "theorems": [
    "Verif.Props.ThreadObj.C126_safe",
    "Verif.Props.ThreadObj.C126_finished",
    "Verif.Props.ThreadObj.C126_one_each",
    "Verif.Props.ThreadObj.C126_no_deadlock",
    "Verif.Props.ThreadObj.C126_join_waits",
    "Verif.Props.ThreadObj.C126_finding_pure_virtual",
    "Verif.Props.ThreadObj.C126_finding_destroyed",
    "Verif.Props.ThreadObj.C126_finding_twice",
    "Verif.Props.ThreadObj.C126_finding_timeout",
    "Verif.Props.ThreadObj.C126_finding_failed_begin"
   ],
   "note": "Complete for the modelled class; careful owners are defined by the sequence of their calls."
  },
  {
   "property": "C127",
   "status": "proved",
   "theorems": [
    "Verif.Props.WaveletDirect.C127_get_rank",
    "Verif.Props.WaveletDirect.C127_select",
    "Verif.Props.WaveletDirect.C127_same",
    "Verif.Props.WaveletDirect.C127_throws",
    "Verif.Props.WaveletDirect.C127_saved",
    "Verif.Props.WaveletDirect.C127_finding_files_differ"
   ],
   "note": "Complete; the limit of 2^32 elements is that of C14."
  },
  {
   "property": "C128",
   "status": "proved",
   "theorems": [
    "Verif.Props.FmSample32.C128_simple",
    "Verif.Props.FmSample32.C128_search",
    "Verif.Props.FmSample32.C128_recover",
    "Verif.Props.FmSample32.C128_bad_text",
    "Verif.Props.FmSample32.C128_bad_skip",
    "Verif.Props.FmSample32.C128_finding_many"
   ],
   "note": "Complete within the limits of the index, which are part of the statement; outside of them the refusal is proved (C128_finding_many)."
  },
  {
   "property": "C129",
   "status": "proved",
   "theorems": [
    "Verif.Props.UFind.C129_find",
    "Verif.Props.UFind.C129_rfind",
    "Verif.Props.UFind.C129_find_first_of",
    "Verif.Props.UFind.C129_find_first_not_of",
    "Verif.Props.UFind.C129_find_last_of",
    "Verif.Props.UFind.C129_find_last_not_of",
    "Verif.Props.UFind.C129_sync",
    "Verif.Props.UFind.C129_find_bytes",
    "Verif.Props.UFind.C129_rfind_bytes",
    "Verif.Props.UFind.C129_first_of_bytes",
    "Verif.Props.UFind.C129_last_of_bytes",
    "Verif.Props.UFind.C129_finding_of_bytes",
    "Verif.Props.UFind.C129_substr",
    "Verif.Props.UFind.C129_erase",
    "Verif.Props.UFind.C129_builds"
   ],
   "note": "Complete for the searches, substr and erase."
  },
  {
   "property": "C130",
   "status": "proved",
   "theorems": [
    "Verif.Props.TfIdfWeight.C130_weights",
    "Verif.Props.TfIdfWeight.C130_weight_sign",
    "Verif.Props.TfIdfWeight.C130_weight_rare",
    "Verif.Props.TfIdfWeight.C130_finding_N",
    "Verif.Props.TfIdfWeight.C130_finding_twice"
   ],
   "note": "Complete for `term` over real numbers. The condition on the number of documents is needed: `C57_finding_term`."
  },
  {
   "property": "C131",
   "status": "proved",
   "theorems": [
    "Verif.Props.Monitor.C131_mutex",
    "Verif.Props.Monitor.C131_fifo",
    "Verif.Props.Monitor.C131_no_lost_wakeup",
    "Verif.Props.Monitor.C131_no_hang",
    "Verif.Props.Monitor.C131_runs_end",
    "Verif.Props.Monitor.C131_can_finish",
    "Verif.Props.Monitor.C131_finding_test_can_hang"
   ],
   "note": "Complete for the pthread branch. The Windows construction of ConditionVariable is C68."
  },
  {
   "property": "C132",
   "status": "proved",
   "theorems": [
    "Verif.Props.MonitorWin.C132_mutex",
    "Verif.Props.MonitorWin.C132_fifo",
    "Verif.Props.MonitorWin.C132_no_lost_wakeup",
    "Verif.Props.MonitorWin.C132_no_hang",
    "Verif.Props.MonitorWin.C132_runs_end",
    "Verif.Props.MonitorWin.C132_finishes"
   ],
   "note": "Complete for up to 2^30 threads and puts (the semaphore's maximum is 2^31-1)."
  },
  {
   "property": "C133",
   "status": "proved",
   "theorems": [
    "Verif.Props.UCompare.C133_part",
    "Verif.Props.UCompare.C133_parts",
    "Verif.Props.UCompare.C133_part_exists",
    "Verif.Props.UCompare.C133_pointer",
    "Verif.Props.UCompare.C133_unterminated",
    "Verif.Props.UCompare.C133_finding_nul",
    "Verif.Props.UCompare.C133_move",
    "Verif.Props.UCompare.C133_plus_move",
    "Verif.Props.UCompare.C133_hash64_one_place",
    "Verif.Props.UCompare.C133_hash32_one_place",
    "Verif.Props.UCompare.C133_hash64_seed",
    "Verif.Props.UCompare.C133_hash32_seed",
    "Verif.Props.UCompare.C133_hash_one_place",
    "Verif.Props.UCompare.C133_hash_two_places"
   ],
   "note": "Complete. Self-move is left out (the standard leaves the result open)."
  },
  {
   "property": "C134",
   "status": "proved",
   "theorems": [
    "Verif.Props.StdStream.C134_good",
    "Verif.Props.StdStream.C134_not_good",
    "Verif.Props.StdStream.C134_history",
    "Verif.Props.StdStream.C134_follow",
    "Verif.Props.StdStream.C134_finding_stuck",
    "Verif.Props.StdStream.C134_char",
    "Verif.Props.StdStream.C134_finding_wiped",
    "Verif.Props.StdStream.C134_read",
    "Verif.Props.StdStream.C134_flagless",
    "Verif.Props.StdStream.C134_finding_exceptions",
    "Verif.Props.StdStream.C134_finding_device_error",
    "Verif.Props.StdStream.C134_writes",
    "Verif.Props.StdStream.C134_write_flag",
    "Verif.Props.StdStream.C134_finding_eof_write",
    "Verif.Props.StdStream.C134_string_grows",
    "Verif.Props.StdStream.C134_finding_string_shrinks"
   ],
   "note": "Complete for the adaptors; the standard streams are modelled by their documented behaviour."
  },
  {
   "property": "C135",
   "status": "proved",
   "theorems": [
    "Verif.Props.OptShow.C135_number",
    "Verif.Props.OptShow.C135_string",
    "Verif.Props.OptShow.C135_vector",
    "Verif.Props.OptShow.C135_vector_shown",
    "Verif.Props.OptShow.C135_finding_bytes",
    "Verif.Props.OptShow.C135_finding_strings",
    "Verif.Props.OptShow.C135_error_texts",
    "Verif.Props.OptShow.C135_set_flag",
    "Verif.Props.OptShow.C135_unterminated",
    "Verif.Props.OptShow.C135_append",
    "Verif.Props.OptShow.C135_finding_append_after",
    "Verif.Props.OptShow.C135_finding_copy"
   ],
   "note": "Complete for integers, strings and vectors of them."
  },
  {
   "property": "C136",
   "status": "proved",
   "theorems": [
    "Verif.Props.V128Lane.C136_parts",
    "Verif.Props.V128Lane.C136_memory",
    "Verif.Props.V128Lane.C136_aligned",
    "Verif.Props.V128Lane.C136_words",
    "Verif.Props.V128Lane.C136_insert",
    "Verif.Props.V128Lane.C136_insert_byte",
    "Verif.Props.V128Lane.C136_zero",
    "Verif.Props.V128Lane.C136_finding_set",
    "Verif.Props.V128Lane.C136_add",
    "Verif.Props.V128Lane.C136_select",
    "Verif.Props.V128Lane.C136_xor",
    "Verif.Props.V128Lane.C136_max",
    "Verif.Props.V128Lane.C136_equal",
    "Verif.Props.V128Lane.C136_test",
    "Verif.Props.V128Lane.C136_shuffle",
    "Verif.Props.V128Lane.C136_shuffle_bytes",
    "Verif.Props.V128Lane.C136_transpose",
    "Verif.Props.V128Lane.C136_halves",
    "Verif.Props.V128Lane.C136_shift",
    "Verif.Props.V128Lane.C136_distance"
   ],
   "note": "Complete for the wrappers; the instructions are modelled from the manual."
  },
  {
   "property": "C137",
   "status": "proved",
   "theorems": [
    "Verif.Props.RegexWrap.C137_parts",
    "Verif.Props.RegexWrap.C137_range",
    "Verif.Props.RegexWrap.C137_no_range",
    "Verif.Props.RegexWrap.C137_full",
    "Verif.Props.RegexWrap.C137_bool",
    "Verif.Props.RegexWrap.C137_finding_temporary",
    "Verif.Props.RegexWrap.C137_pattern",
    "Verif.Props.RegexWrap.C137_finding_pattern_nul"
   ],
   "note": "Complete for the wrappers over an arbitrary engine."
  },
  {
   "property": "C138",
   "status": "proved",
   "theorems": [
    "Verif.Props.RegexIter.C138_matches",
    "Verif.Props.RegexIter.C138_tokens",
    "Verif.Props.RegexIter.C138_split",
    "Verif.Props.RegexIter.C138_parts",
    "Verif.Props.RegexIter.C138_at_end",
    "Verif.Props.RegexIter.C138_post",
    "Verif.Props.RegexIter.C138_finding_deref",
    "Verif.Props.RegexIter.C138_finding_temporary_pattern"
   ],
   "note": "Complete over an arbitrary engine; dereferencing sregex_iterator is a finding."
  },
  {
   "property": "C139",
   "status": "proved",
   "theorems": [
    "Verif.Props.FreqCopy.C139_answers",
    "Verif.Props.FreqCopy.C139_frame",
    "Verif.Props.FreqCopy.C139_programs",
    "Verif.Props.FreqCopy.C139_ready",
    "Verif.Props.FreqCopy.C139_build",
    "Verif.Props.FreqCopy.C139_move",
    "Verif.Props.FreqCopy.C139_copy",
    "Verif.Props.FreqCopy.C139_finding_copy",
    "Verif.Props.FreqCopy.C139_finding_assign",
    "Verif.Props.FreqCopy.C139_finding_append"
   ],
   "note": "Proved for all programs over the listed operations; that a copy is independent of its source is false and stated as findings."
  },
  {
   "property": "C140",
   "status": "proved",
   "theorems": [
    "Verif.Props.TfIdfCopy.C140_values",
    "Verif.Props.TfIdfCopy.C140_end_at_once",
    "Verif.Props.TfIdfCopy.C140_finding_source",
    "Verif.Props.TfIdfCopy.C140_finding_source_gone"
   ],
   "note": "Proved for all programs that copy between documents; for copies inside a document independence is false and stated as findings."
  },
  {
   "property": "C141",
   "status": "proved",
   "theorems": [
    "Verif.Props.FsNames.C141_exist",
    "Verif.Props.FsNames.C141_size",
    "Verif.Props.FsNames.C141_rename",
    "Verif.Props.FsNames.C141_no_overwrite",
    "Verif.Props.FsNames.C141_remove",
    "Verif.Props.FsNames.C141_no_file_lost",
    "Verif.Props.FsNames.C141_finding_dangling",
    "Verif.Props.FsNames.C141_finding_race",
    "Verif.Props.FsNames.C141_finding_zero"
   ],
   "note": "Complete for the modelled file system; the exceptions are stated as findings."
  },
  {
   "property": "C142",
   "status": "proved",
   "theorems": [
    "Verif.Props.Sha1Text.C142_text",
    "Verif.Props.Sha1Text.C142_run",
    "Verif.Props.Sha1Text.C142_text_inj",
    "Verif.Props.Sha1Text.C142_text_form",
    "Verif.Props.Sha1Text.C142_finding_before"
   ],
   "note": "Complete for messages below 2^61 bytes; before the first digest the text is indeterminate (finding)."
  },
  {
   "property": "C143",
   "status": "proved",
   "theorems": [
    "Verif.Props.FileWin.C143_same",
    "Verif.Props.FileWin.C143_same_no_append",
    "Verif.Props.FileWin.C143_append",
    "Verif.Props.FileWin.C143_finding_two_appenders",
    "Verif.Props.FileWin.C143_finding_seek",
    "Verif.Props.FileWin.C143_finding_truncated",
    "Verif.Props.FileWin.C143_write_loop",
    "Verif.Props.FileWin.C143_read_loop"
   ],
   "note": "Complete under the stated condition; the cases outside it are stated as findings. Windows functions are modelled from their documentation."
  },
  {
   "property": "C144",
   "status": "proved",
   "theorems": [
    "Verif.Props.TimeFmt.C144_date",
    "Verif.Props.TimeFmt.C144_toString",
    "Verif.Props.TimeFmt.C144_far_future",
    "Verif.Props.TimeFmt.C144_roundtrip",
    "Verif.Props.TimeFmt.C144_default",
    "Verif.Props.TimeFmt.C144_current",
    "Verif.Props.TimeFmt.C144_finding_refused",
    "Verif.Props.TimeFmt.C144_finding_msec"
   ],
   "note": "Complete for the listed conversions. strftime and gmtime_r are modelled from the C and POSIX standards."
  },
  {
   "property": "C145",
   "status": "proved",
   "theorems": [
    "Verif.Props.BitVectorOwn.C145_append_own",
    "Verif.Props.BitVectorOwn.C145_append_self",
    "Verif.Props.BitVectorOwn.C145_extract_in_place",
    "Verif.Props.BitVectorOwn.C145_finding_extract_self",
    "Verif.Props.BitVectorOwn.C145_finding_example",
    "Verif.Props.BitVectorOwn.C145_finding_wrap"
   ],
   "note": "Complete. That std::vector::resize frees the storage exactly when the capacity is exceeded is from the C++ standard."
  },
  {
   "property": "C146",
   "status": "proved",
   "theorems": [
    "Verif.Props.OptionShare.C146_parse",
    "Verif.Props.OptionShare.C146_last_wins",
    "Verif.Props.OptionShare.C146_untouched",
    "Verif.Props.OptionShare.C146_own_variable",
    "Verif.Props.OptionShare.C146_finding_isSet",
    "Verif.Props.OptionShare.C146_finding_must",
    "Verif.Props.OptionShare.C146_copy",
    "Verif.Props.OptionShare.C146_finding_alias",
    "Verif.Props.OptionShare.C146_isSet_declared"
   ],
   "note": "Complete for conversions whose acceptance does not depend on the old value of the variable (all of the library)."
  },
  {
   "property": "C147",
   "status": "proved",
   "theorems": [
    "Verif.Props.ShaSession.C147_sha256",
    "Verif.Props.ShaSession.C147_sha512",
    "Verif.Props.ShaSession.C147_cleared",
    "Verif.Props.ShaSession.C147_carry",
    "Verif.Props.ShaSession.C147_finding_no_clear"
   ],
   "note": "Complete for the branch without OpenSSL."
  },
  {
   "property": "C148",
   "status": "proved",
   "theorems": [
    "Verif.Props.ArrayFail.C148_vector",
    "Verif.Props.ArrayFail.C148_no_leak",
    "Verif.Props.ArrayFail.C148_strong",
    "Verif.Props.ArrayFail.C148_finding_alignment"
   ],
   "note": "Complete for the branch without _WIN32."
  },
  {
   "property": "C149",
   "status": "proved",
   "theorems": [
    "Verif.Props.ProcMany.C149_reports",
    "Verif.Props.ProcMany.C149_descriptors",
    "Verif.Props.ProcMany.C149_inherits",
    "Verif.Props.ProcMany.C149_returns",
    "Verif.Props.ProcMany.C149_work",
    "Verif.Props.ProcMany.C149_finding_waits",
    "Verif.Props.ProcMany.C149_finding_signal"
   ],
   "note": "Complete for closeStdio = false. The reports assume the closing loop spares the pipe of the call (C63 has what happens otherwise)."
  },
  {
   "property": "C150",
   "status": "proved",
   "theorems": [
    "Verif.Props.TopNan.C150_numbers",
    "Verif.Props.TopNan.C150_late_nan",
    "Verif.Props.TopNan.C150_finding_nan",
    "Verif.Props.TopNan.C150_finding_one_nan"
   ],
   "note": "Complete: any sequence of additions, any of them NaN."
  },
  {
   "property": "C151",
   "status": "proved",
   "theorems": [
    "Verif.Props.SerFixed.C151_roundtrip",
    "Verif.Props.SerFixed.C151_truncated",
    "Verif.Props.SerFixed.C151_never_undefined",
    "Verif.Props.SerFixed.C151_length",
    "Verif.Props.SerFixed.C151_same_room",
    "Verif.Props.SerFixed.C151_finding_other_build",
    "Verif.Props.SerFixed.C151_finding_other_build_back"
   ],
   "note": "Complete for 64-bit little-endian machines; sets and maps are loaded into empty objects (C20 has what happens otherwise)."
  },
  {
   "property": "C152",
   "status": "proved",
   "theorems": [
    "Verif.Props.OptStream.C152_number",
    "Verif.Props.OptStream.C152_accepted",
    "Verif.Props.OptStream.C152_refused",
    "Verif.Props.OptStream.C152_char",
    "Verif.Props.OptStream.C152_bool",
    "Verif.Props.OptStream.C152_finding_rest_ignored",
    "Verif.Props.OptStream.C152_finding_letter_e"
   ],
   "note": "Complete for libstdc++ in the C locale; rounding is a parameter."
  },
  {
   "property": "C153",
   "status": "proved",
   "theorems": [
    "Verif.Props.ConfigPtr.C153_same",
    "Verif.Props.ConfigPtr.C153_section",
    "Verif.Props.ConfigPtr.C153_value",
    "Verif.Props.ConfigPtr.C153_undefined",
    "Verif.Props.ConfigPtr.C153_kept",
    "Verif.Props.ConfigPtr.C153_default",
    "Verif.Props.ConfigPtr.C153_finding_key_gone",
    "Verif.Props.ConfigPtr.C153_finding_default_gone",
    "Verif.Props.ConfigPtr.C153_finding_replaced"
   ],
   "note": "Complete for one Config object that is not itself assigned or destroyed."
  },
  {
   "property": "C154",
   "status": "proved",
   "theorems": [
    "Verif.Props.QuitEvent.C154_mutex",
    "Verif.Props.QuitEvent.C154_not_lost",
    "Verif.Props.QuitEvent.C154_handler",
    "Verif.Props.QuitEvent.C154_released",
    "Verif.Props.QuitEvent.C154_finding_stuck",
    "Verif.Props.QuitEvent.C154_pipe_ends",
    "Verif.Props.QuitEvent.C154_pipe_count",
    "Verif.Props.QuitEvent.C154_pipe_kept",
    "Verif.Props.QuitEvent.C154_finding_twice"
   ],
   "note": "Complete for one Event and handlers that only call wakeup."
  },
  {
   "property": "C155",
   "status": "proved",
   "theorems": [
    "Verif.Props.LogThreads.C155_files",
    "Verif.Props.LogThreads.C155_use",
    "Verif.Props.LogThreads.C155_lines",
    "Verif.Props.LogThreads.C155_read",
    "Verif.Props.LogThreads.C155_flushed",
    "Verif.Props.LogThreads.C155_order",
    "Verif.Props.LogThreads.C155_times",
    "Verif.Props.LogThreads.C155_syslog",
    "Verif.Props.LogThreads.C155_syslog_default",
    "Verif.Props.LogThreads.C155_finding_times",
    "Verif.Props.LogThreads.C155_finding_closed",
    "Verif.Props.LogThreads.C155_finding_closed_twice",
    "Verif.Props.LogThreads.C155_finding_flush"
   ],
   "note": "Complete for the modelled calls (PutLog, Log, OpenLogFile) with library calls that succeed."
  },
  {
   "property": "C156",
   "status": "proved",
   "theorems": [
    "Verif.Props.Appenders.C156_nothing_lost",
    "Verif.Props.Appenders.C156_whole",
    "Verif.Props.Appenders.C156_position",
    "Verif.Props.Appenders.C156_alone",
    "Verif.Props.Appenders.C156_finding_torn",
    "Verif.Props.Appenders.C156_finding_overwritten"
   ],
   "note": "Complete for appending objects on Linux with system calls that do not fail."
  },
  {
   "property": "C157",
   "status": "proved",
   "theorems": [
    "Verif.Props.Sigpipe.C157_write",
    "Verif.Props.Sigpipe.C157_survives",
    "Verif.Props.Sigpipe.C157_gone",
    "Verif.Props.Sigpipe.C157_finding_static",
    "Verif.Props.Sigpipe.C157_finding_handler",
    "Verif.Props.Sigpipe.C157_finding_child"
   ],
   "note": "Complete for the modelled actions (Linux)."
  },
  {
   "property": "C158",
   "status": "proved",
   "theorems": [
    "Verif.Props.SocketUse.C158_own",
    "Verif.Props.SocketUse.C158_distinct",
    "Verif.Props.SocketUse.C158_finding_reused",
    "Verif.Props.SocketUse.C158_finding_split"
   ],
   "note": "Complete for the modelled calls."
  },
  {
   "property": "C159",
   "status": "proved",
   "theorems": [
    "Verif.Props.MmapLive.C159_replaced",
    "Verif.Props.MmapLive.C159_current",
    "Verif.Props.MmapLive.C159_seen",
    "Verif.Props.MmapLive.C159_any",
    "Verif.Props.MmapLive.C159_size",
    "Verif.Props.MmapLive.C159_finding_bus",
    "Verif.Props.MmapLive.C159_finding_race",
    "Verif.Props.MmapLive.C159_finding_changes"
   ],
   "note": "Complete for the modelled steps (Linux)."
  },
  {
   "property": "C160",
   "status": "proved",
   "theorems": [
    "Verif.Props.SocketServ.C160_served",
    "Verif.Props.SocketServ.C160_no_leak",
    "Verif.Props.SocketServ.C160_alive",
    "Verif.Props.SocketServ.C160_finding_one_client"
   ],
   "note": "Complete for the server of the sample."
  },
  {
   "property": "C161",
   "status": "proved",
   "theorems": [
    "Verif.Props.SslStatic.C161_order",
    "Verif.Props.SslStatic.C161_finding_early",
    "Verif.Props.SslStatic.C161_finding_late",
    "Verif.Props.SslStatic.C161_balanced"
   ],
   "note": "Complete for the modelled objects."
  },
  {
   "property": "C162",
   "status": "proved",
   "theorems": [
    "Verif.Props.ParallelSigned.C162_signed",
    "Verif.Props.ParallelSigned.C162_negative",
    "Verif.Props.ParallelSigned.C162_defined"
   ],
   "note": "Complete."
  },
  {
   "property": "C163",
   "status": "proved",
   "theorems": [
    "Verif.Props.CsvRecover.C163_round",
    "Verif.Props.CsvRecover.C163_call",
    "Verif.Props.CsvRecover.C163_progress",
    "Verif.Props.CsvRecover.C163_finite",
    "Verif.Props.CsvRecover.C163_finding_middle",
    "Verif.Props.CsvRecover.C163_finding_limit_once"
   ],
   "note": "Complete for inputs that can be read."
  },
  {
   "property": "C164",
   "status": "proved",
   "theorems": [
    "Verif.Props.SucFail.C164_same",
    "Verif.Props.SucFail.C164_init_again",
    "Verif.Props.SucFail.C164_untouched",
    "Verif.Props.SucFail.C164_finding_size_without_bits"
   ],
   "note": "Complete for SucVector; the other structures that load member by member are not covered."
  },
  {
   "property": "C165",
   "status": "proved",
   "theorems": [
    "Verif.Props.ConfigFail.C165_same",
    "Verif.Props.ConfigFail.C165_prefix",
    "Verif.Props.ConfigFail.C165_kept",
    "Verif.Props.ConfigFail.C165_ends",
    "Verif.Props.ConfigFail.C165_finding_section"
   ],
   "note": "Complete. That a refused line has not changed the object is read off the code (each throw comes before the insertion, or after one that did not insert) and is part of the model."
  },
  {
   "property": "C166",
   "status": "proved",
   "theorems": [
    "Verif.Props.LineRecover.C166_after",
    "Verif.Props.LineRecover.C166_finding_stuck",
    "Verif.Props.LineRecover.C166_finding_lost",
    "Verif.Props.LineRecover.C166_reader_same",
    "Verif.Props.LineRecover.C166_reader_threw"
   ],
   "note": "Complete for limits of at least 2 (C23 has the findings for 0 and 1)."
  },
  {
   "property": "C167",
   "status": "proved",
   "theorems": [
    "Verif.Props.OptionAgain.C167_keeps",
    "Verif.Props.OptionAgain.C167_many",
    "Verif.Props.OptionAgain.C167_finding_retry",
    "Verif.Props.OptionAgain.C167_finding_must"
   ],
   "note": "Complete."
  }
 ]
}