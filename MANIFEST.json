{
 "claims": [
  {
   "property": "C01",
   "status": "proved",
   "theorems": [
    "Verif.Props.C01_decode_encode"
   ],
   "note": ""
  },
  {
   "property": "C02",
   "status": "proved",
   "theorems": [
    "Verif.Props.C02_decode_iff_encode",
    "Verif.Props.C02_unique",
    "Verif.Props.C02_encode_injective"
   ],
   "note": ""
  },
  {
   "property": "C03",
   "status": "proved",
   "theorems": [
    "Verif.Props.C03_encode_is_numeral",
    "Verif.Props.C03_encode_buffer",
    "Verif.Props.C143_encode"
   ],
   "note": "Encode panics on a too small buffer. C03_encode_buffer is about separate buffers, where the model writes the loop as a list; C143_encode proves the same of the loop that stores digit after digit into one memory."
  },
  {
   "property": "C04",
   "status": "partial",
   "theorems": [
    "Verif.Props.C04_validate_decode_partial",
    "Verif.Props.C04_refuted",
    "Verif.Props.C04_exact"
   ],
   "note": "The full equivalence is false (C04_refuted: \"z\"); agreement holds on all encoded lengths, decoding success always implies validity, and C04_exact says for every string when the two answers differ: exactly one extra alphabet character in front that leaves a non-encoded length."
  },
  {
   "property": "C05",
   "status": "partial",
   "theorems": [
    "Verif.Props.C05_no_panic",
    "Verif.Props.C05_decode_valid",
    "Verif.Props.C05_decode_zeroed",
    "Verif.Props.C05_success_length",
    "Verif.Props.C05_frame_partial",
    "Verif.Props.C05_frame_refuted",
    "Verif.Props.C05_frame_exact",
    "Verif.Props.C05_string"
   ],
   "note": "\"touches only the first DecodedLen bytes\" is false for sources of non-canonical length (C05_frame_refuted); C05_frame_exact bounds the damage for every input: at most the one byte at index DecodedLen, and only at a non-canonical length. Everything else is proved."
  },
  {
   "property": "C06",
   "status": "proved",
   "theorems": [
    "Verif.Props.C06_is_iff"
   ],
   "note": ""
  },
  {
   "property": "C07",
   "status": "proved",
   "theorems": [
    "Verif.Props.C07_parse_format"
   ],
   "note": ""
  },
  {
   "property": "C08",
   "status": "partial",
   "theorems": [
    "Verif.Props.C08_digest_size_partial",
    "Verif.Props.C08_refuted",
    "Verif.Props.C08_refuted_newlines",
    "Verif.Props.C08_exact"
   ],
   "note": "False for base64: unpadded or newline-containing text of the right length gives a digest of another size. C08_exact: for every accepted text, a base64 digest has the right size if and only if the text has no newline and the canonical number of \"=\"; base16 and nixbase32 digests always have it."
  },
  {
   "property": "C09",
   "status": "proved",
   "theorems": [
    "Verif.Props.C09_algo_enforced",
    "Verif.Props.C09_mismatch_rejected"
   ],
   "note": ""
  },
  {
   "property": "C10",
   "status": "proved",
   "theorems": [
    "Verif.Props.C10_reparse"
   ],
   "note": ""
  },
  {
   "property": "C11",
   "status": "proved",
   "theorems": [
    "Verif.Props.C11_parseNixBase32_iff",
    "Verif.Props.C11_must_parse"
   ],
   "note": ""
  },
  {
   "property": "C12",
   "status": "proved",
   "theorems": [
    "Verif.Props.C12_compress",
    "Verif.Props.C12_linear",
    "Verif.Props.C12_panic_iff"
   ],
   "note": ""
  },
  {
   "property": "C13",
   "status": "proved",
   "theorems": [
    "Verif.Props.C13_uint64",
    "Verif.Props.C13_bool",
    "Verif.Props.C13_bool_rejects",
    "Verif.Props.C13_short"
   ],
   "note": ""
  },
  {
   "property": "C14",
   "status": "proved",
   "theorems": [
    "Verif.Props.C14_bytes"
   ],
   "note": ""
  },
  {
   "property": "C15",
   "status": "proved",
   "theorems": [
    "Verif.Props.C15_limit",
    "Verif.Props.C15_limit_error"
   ],
   "note": ""
  },
  {
   "property": "C16",
   "status": "partial",
   "theorems": [
    "Verif.Props.C16_readBytesFull_refuted",
    "Verif.Props.C16_close_partial",
    "Verif.Props.C16_close_truncated_content",
    "Verif.Props.C16_exact"
   ],
   "note": "BytesReader.Close enforces zero padding (proved, iff); ReadBytesFull drops the error of its deferred Close, so non-zero or missing padding is accepted there (refuted). C16_exact: for every input, when ReadBytesFull succeeds and where it leaves the reader."
  },
  {
   "property": "C17",
   "status": "proved",
   "theorems": [
    "Verif.Props.C17_bytes_reader",
    "Verif.Props.C17_read_all",
    "Verif.Props.C17_close_refuted"
   ],
   "note": "for every reader; C17_close_refuted: Close may return an error although the packet is complete, when the underlying reader reports an error other than io.EOF together with the last byte of it"
  },
  {
   "property": "C18",
   "status": "proved",
   "theorems": [
    "Verif.Props.C18_bytes_writer",
    "Verif.Props.C18_closed_is_packet",
    "Verif.Props.C18_spec_closed",
    "Verif.Props.C18_prefix_of_packet",
    "Verif.Props.C18_overflow"
   ],
   "note": "C18_overflow: beyond 2^64 the counter wraps, and the claim is false."
  },
  {
   "property": "C19",
   "status": "proved",
   "theorems": [
    "Verif.Props.C19_fragmentation",
    "Verif.Props.C19_stream",
    "Verif.Props.C19_close_refuted"
   ],
   "note": "for every reader, including those that return data together with an error; C19_close_refuted: the one case in which the result of BytesReader.Close (not of a read function) depends on the fragmentation"
  },
  {
   "property": "C20",
   "status": "proved",
   "theorems": [
    "Verif.Props.C20_wire_sink_failure",
    "Verif.Props.C20_writer_sink_failure",
    "Verif.Props.C20_newWriter_sink_failure"
   ],
   "note": "Wire functions and nar.Writer."
  },
  {
   "property": "C33",
   "status": "partial",
   "theorems": [
    "Verif.Props.C33_refuted",
    "Verif.Props.C33_order_partial",
    "Verif.Props.C33_exact_above_slash",
    "Verif.Props.C33_complete_total"
   ],
   "note": "Refuted as stated (\"/a-b\" before \"/a/b\"); exact characterisation proved; exact for paths without bytes below '/'."
  },
  {
   "property": "C34",
   "status": "proved",
   "theorems": [
    "Verif.Props.C34_validate_iff"
   ],
   "note": ""
  },
  {
   "property": "C38",
   "status": "partial",
   "theorems": [
    "Verif.Props.C38_refuted",
    "Verif.Props.C38_permissions_partial",
    "Verif.Props.C38_windows",
    "Verif.Props.C38_info"
   ],
   "note": "ModeDir is never set and symlinks have write bits; permission bits of files and directories proved. C38_windows: the bits of the Windows variant, where ModeDir is right but Executable is ignored."
  },
  {
   "property": "C75",
   "status": "proved",
   "theorems": [
    "Verif.Props.C75_valid_name_iff"
   ],
   "note": ""
  },
  {
   "property": "C23",
   "status": "partial",
   "theorems": [
    "Verif.Props.C23_refuted",
    "Verif.Props.C23_refuted_path",
    "Verif.Props.C23_read_back_partial",
    "Verif.Props.C23_read_last",
    "Verif.Props.C23_exact",
    "Verif.Props.C23_rest_exact",
    "Verif.Props.C23_condition"
   ],
   "note": "An entry called \")\" ends its directory (C23_refuted); nested ones make the reader report files at other paths (C23_refuted_path). Proved exactly when a tree is read back (C23_exact, iff): within the documented length limits, and whatever comes after an entry called \")\" is inside it; with contents for any sizes of Read calls and any data after the archive (C23_read_last); and when exactly the archive is consumed (C23_rest_exact)."
  },
  {
   "property": "C25",
   "status": "proved",
   "theorems": [
    "Verif.Props.C25_paths_clean"
   ],
   "note": ""
  },
  {
   "property": "C26",
   "status": "proved",
   "theorems": [
    "Verif.Props.C26_order",
    "Verif.Props.C26_rejects",
    "Verif.Props.C26_unordered",
    "Verif.Props.C26_tree",
    "Verif.Props.C26_unsorted"
   ],
   "note": ""
  },
  {
   "property": "C27",
   "status": "proved",
   "theorems": [
    "Verif.Props.C27_sticky"
   ],
   "note": ""
  },
  {
   "property": "C28",
   "status": "proved",
   "theorems": [
    "Verif.Props.C28_reading_irrelevant"
   ],
   "note": ""
  },
  {
   "property": "C29",
   "status": "partial",
   "theorems": [
    "Verif.Props.C29_refuted",
    "Verif.Props.C29_eof_partial",
    "Verif.Props.C29_io_error_partial",
    "Verif.Props.C100_language"
   ],
   "note": "A truncated archive can give io.EOF (refuted as stated); io.EOF otherwise means a complete archive in the relaxed format. C100_language lists exactly the places where a cut is not noticed."
  },
  {
   "property": "C30",
   "status": "partial",
   "theorems": [
    "Verif.Props.C30_refuted",
    "Verif.Props.C30_refuted_not_nar",
    "Verif.Props.C30_grammar_partial",
    "Verif.Props.C100_language"
   ],
   "note": "Refuted as stated; soundness with respect to an explicit relaxed grammar proved. C100_language: exactly this language is accepted."
  },
  {
   "property": "C31",
   "status": "proved",
   "theorems": [
    "Verif.Props.C31_headers_consistent"
   ],
   "note": ""
  },
  {
   "property": "C32",
   "status": "partial",
   "theorems": [
    "Verif.Props.C32_refuted",
    "Verif.Props.C32_close_partial"
   ],
   "note": "Goroutine leak (refuted as stated); exact condition for termination proved."
  },
  {
   "property": "C79",
   "status": "proved",
   "theorems": [
    "Verif.Props.C79_next_total"
   ],
   "note": ""
  },
  {
   "property": "C21",
   "status": "partial",
   "theorems": [
    "Verif.Props.C21_refuted",
    "Verif.Props.C21_writes_nar_partial",
    "Verif.Props.C21_exact"
   ],
   "note": "Entries called like ..foo are refused (refuted as stated); proved for all other trees and all ways of splitting the contents. C21_exact: for every tree the calls all succeed exactly when no entry is called like ..foo and no symlink has an empty target."
  },
  {
   "property": "C22",
   "status": "partial",
   "theorems": [
    "Verif.Props.C22_refuted",
    "Verif.Props.C22_refuted_twice",
    "Verif.Props.C22_refuted_type",
    "Verif.Props.C22_valid_nar_partial",
    "Verif.Props.C22_exact"
   ],
   "note": "Refuted for unclean paths, repeated directory headers and unknown types; proved otherwise. C22_exact: for every successful history, the claim holds if and only if paths are clean, types known, sizes not negative and no path is given twice in a row."
  },
  {
   "property": "C24",
   "status": "partial",
   "theorems": [
    "Verif.Props.C24_reader_inverts_writer_partial",
    "Verif.Props.C24_exact"
   ],
   "note": "C24_exact: for every history under the conditions of C22, exactly when the reader returns what was written (length limits, nothing after an entry called \")\" but its contents), and then also the data."
  },
  {
   "property": "C36",
   "status": "partial",
   "theorems": [
    "Verif.Props.C36_refuted_blocks",
    "Verif.Props.C36_refuted_close",
    "Verif.Props.C36_after_error_partial"
   ],
   "note": "Refuted as stated; the exact behaviour after an error is proved."
  },
  {
   "property": "C35",
   "status": "partial",
   "theorems": [
    "Verif.Props.C35_refuted_name",
    "Verif.Props.C35_refuted_root",
    "Verif.Props.C35_dump_filter_partial",
    "Verif.Props.C35_dump_partial",
    "Verif.Props.C35_exact"
   ],
   "note": "Refuted for names like ..foo and a rejected root; otherwise proved (iff and output). C35_exact: for every file system tree, with errors of Readlink, ReadDir, Open and Read anywhere, nil is returned exactly when every node that is reached can be read, the root is kept and no kept entry is called like ..foo; then the output is the NAR of what the filter left."
  },
  {
   "property": "C39",
   "status": "partial",
   "theorems": [
    "Verif.Props.C39_refuted_leaf",
    "Verif.Props.C39_refuted_panic",
    "Verif.Props.C39_ls_partial"
   ],
   "note": "Refuted for leaves and null entries; exact acceptance condition proved."
  },
  {
   "property": "C40",
   "status": "partial",
   "theorems": [
    "Verif.Props.C40_refuted",
    "Verif.Props.C40_validate_partial"
   ],
   "note": "Refuted; exact acceptance condition proved."
  },
  {
   "property": "C41",
   "status": "proved",
   "theorems": [
    "Verif.Props.C41_roundtrip"
   ],
   "note": ""
  },
  {
   "property": "C42",
   "status": "partial",
   "theorems": [
    "Verif.Props.C42_refuted",
    "Verif.Props.C42_from_string_partial",
    "Verif.Props.C42_accepts_partial",
    "Verif.Props.C42_exact"
   ],
   "note": "Refuted for strings with slashes or a wrong separator; otherwise proved. C42_exact: for every accepted string, exactly when the claim holds (which strings are accepted is C103)."
  },
  {
   "property": "C43",
   "status": "partial",
   "theorems": [
    "Verif.Props.C43_refuted",
    "Verif.Props.C43_prefix_partial",
    "Verif.Props.C43_store_partial"
   ],
   "note": "Refuted: the prefix is ignored; exact behaviour proved."
  },
  {
   "property": "C44",
   "status": "proved",
   "theorems": [
    "Verif.Props.C44_no_panic"
   ],
   "note": ""
  },
  {
   "property": "C45",
   "status": "proved",
   "theorems": [
    "Verif.Props.C45_chunking"
   ],
   "note": ""
  },
  {
   "property": "C46",
   "status": "proved",
   "theorems": [
    "Verif.Props.C46_sound"
   ],
   "note": ""
  },
  {
   "property": "C47",
   "status": "partial",
   "theorems": [
    "Verif.Props.C47_refuted",
    "Verif.Props.C47_complete_partial",
    "Verif.Props.C47_after_slash_partial"
   ],
   "note": "Refuted for misaligned occurrences; exact characterisation proved."
  },
  {
   "property": "C48",
   "status": "proved",
   "theorems": [
    "Verif.Props.C48_sorted"
   ],
   "note": ""
  },
  {
   "property": "C74",
   "status": "proved",
   "theorems": [
    "Verif.Props.C74_new_scanner"
   ],
   "note": ""
  },
  {
   "property": "C80",
   "status": "proved",
   "theorems": [
    "Verif.Props.C80_new_hash"
   ],
   "note": ""
  },
  {
   "property": "C81",
   "status": "proved",
   "theorems": [
    "Verif.Props.C81_algo_names"
   ],
   "note": ""
  },
  {
   "property": "C82",
   "status": "proved",
   "theorems": [
    "Verif.Props.C82_format_injective"
   ],
   "note": ""
  },
  {
   "property": "C49",
   "status": "proved",
   "theorems": [
    "Verif.Props.C49_roundtrip"
   ],
   "note": "Hypotheses: what Parse itself guarantees of its results (WellFormed); String drops FileHash/FileSize unless both are set, an empty Compression and an empty Deriver."
  },
  {
   "property": "C50",
   "status": "proved",
   "theorems": [
    "Verif.Props.C50_accepts",
    "Verif.Props.C50_result"
   ],
   "note": ""
  },
  {
   "property": "C51",
   "status": "partial",
   "theorems": [
    "Verif.Props.C51_refuted",
    "Verif.Props.C51_injective_partial",
    "Verif.Props.C51_strict_partial",
    "Verif.Props.C51_published",
    "Verif.Props.C51_exact",
    "Verif.Props.C51_refs"
   ],
   "note": "Refuted: Check lets through references with \"/../\" and commas; injectivity proved when store paths have no semicolon and references no comma. C51_published: enough that one of the two values is strictly well-formed and the other one passes Check. C51_exact: for store paths without semicolon, exactly when two fingerprints are equal (references equal after splitting at \",/nix/store/\")."
  },
  {
   "property": "C52",
   "status": "proved",
   "theorems": [
    "Verif.Props.C52_check_iff",
    "Verif.Props.C52_parsed_no_panic"
   ],
   "note": ""
  },
  {
   "property": "C53",
   "status": "proved",
   "theorems": [
    "Verif.Props.C53_roundtrip",
    "Verif.Props.C53_accepts"
   ],
   "note": ""
  },
  {
   "property": "C54",
   "status": "proved",
   "theorems": [
    "Verif.Props.C54_first_match",
    "Verif.Props.C54_sound"
   ],
   "note": "ed25519 is a parameter."
  },
  {
   "property": "C55",
   "status": "proved",
   "theorems": [
    "Verif.Props.C55_sign_verify"
   ],
   "note": "Correctness of ed25519 is an explicit hypothesis on the parameter."
  },
  {
   "property": "C56",
   "status": "proved",
   "theorems": [
    "Verif.Props.C56_roundtrip"
   ],
   "note": ""
  },
  {
   "property": "C57",
   "status": "proved",
   "theorems": [
    "Verif.Props.C57_sorted",
    "Verif.Props.C57_order"
   ],
   "note": ""
  },
  {
   "property": "C59",
   "status": "proved",
   "theorems": [
    "Verif.Props.C59_escape"
   ],
   "note": ""
  },
  {
   "property": "C60",
   "status": "proved",
   "theorems": [
    "Verif.Props.C60_order",
    "Verif.Props.C60_any_input"
   ],
   "note": ""
  },
  {
   "property": "C61",
   "status": "partial",
   "theorems": [
    "Verif.Props.C61_refuted",
    "Verif.Props.C61_rewrite_partial",
    "Verif.Props.C61_any_partial",
    "Verif.Props.C61_exact"
   ],
   "note": "Refuted: builder and platform are escaped on write but not unescaped on read. Proved for texts of the ATerm grammar whose strings are in the form the writer uses. C61_any_partial: the same for every accepted text, if the strings read can stand between quotes. C61_exact: for every accepted text, without any condition on the strings: it is given back exactly if it is the layout of its strings as they are, with escaped environment values, and platform and builder have nothing to escape."
  },
  {
   "property": "C62",
   "status": "partial",
   "theorems": [
    "Verif.Props.C62_refuted",
    "Verif.Props.C62_verdict_partial",
    "Verif.Props.C62_validate_partial",
    "Verif.Props.C62_exact"
   ],
   "note": "Refuted: the verdict can depend on map order. Proved exactly when it does (C62_exact): the derivation is otherwise well-formed, the env has both __json and name, and there is no structured name."
  },
  {
   "property": "C83",
   "status": "proved",
   "theorems": [
    "Verif.Props.C83_sink_failure"
   ],
   "note": ""
  },
  {
   "property": "C84",
   "status": "proved",
   "theorems": [
    "Verif.Props.C84_write_injective"
   ],
   "note": ""
  },
  {
   "property": "C85",
   "status": "partial",
   "theorems": [
    "Verif.Props.C85_refuted",
    "Verif.Props.C85_read_no_panic_partial",
    "Verif.Props.C85_exact"
   ],
   "note": "Refuted: an env variable __json with the JSON value null makes the parser read through a nil pointer. Proved that this is the only panic; with the model of encoding/json, the texts that panic are described exactly (C85_exact)."
  },
  {
   "property": "C58",
   "status": "partial",
   "theorems": [
    "Verif.Props.C58_refuted",
    "Verif.Props.C58_order_partial",
    "Verif.Props.C58_exact"
   ],
   "note": "Refuted: two input derivations with the same replacement overwrite each other in map order. Proved exactly when the text depends on the order (C58_exact): two input derivations used with different outputs share a replacement, and every input has one (Ambiguous)."
  },
  {
   "property": "C63",
   "status": "proved",
   "theorems": [
    "Verif.Props.C63_self_reference",
    "Verif.Props.C63_name"
   ],
   "note": ""
  },
  {
   "property": "C64",
   "status": "proved",
   "theorems": [
    "Verif.Props.C64_fixed_output"
   ],
   "note": ""
  },
  {
   "property": "C65",
   "status": "proved",
   "theorems": [
    "Verif.Props.C65_drv_path",
    "Verif.Props.C65_order"
   ],
   "note": "sha256 is a parameter."
  },
  {
   "property": "C66",
   "status": "partial",
   "theorems": [
    "Verif.Props.C66_refuted",
    "Verif.Props.C66_no_panic_partial",
    "Verif.Props.C66_exact",
    "Verif.Props.C66_valid"
   ],
   "note": "Refuted: an empty name passes Validate. Proved exactly when the operations panic (C66_exact: the name is empty) and which valid derivations those are (C66_valid)."
  },
  {
   "property": "C86",
   "status": "partial",
   "theorems": [
    "Verif.Props.C86_refuted",
    "Verif.Props.C86_injective_partial",
    "Verif.Props.C86_files",
    "Verif.Props.C86_exact"
   ],
   "note": "Refuted: arguments are written without escaping. Proved when unescaped strings can stand between quotes (platform, builder and environment values are arbitrary), so for all derivations read from files in the format (C86_files: equal, not just the same contents). C86_exact: for all valid derivations, when the paths are the same and when the hashed texts are."
  },
  {
   "property": "C87",
   "status": "proved",
   "theorems": [
    "Verif.Props.C87_distinct"
   ],
   "note": ""
  },
  {
   "property": "C88",
   "status": "proved",
   "theorems": [
    "Verif.Props.C88_output_paths",
    "Verif.Props.C88_fails_iff"
   ],
   "note": ""
  },
  {
   "property": "C67",
   "status": "proved",
   "theorems": [
    "Verif.Props.C67_map",
    "Verif.Props.C67_failed_put",
    "Verif.Props.C67_put_iff",
    "Verif.Props.C67_checked"
   ],
   "note": "sha256 is a parameter; C67_checked (the output paths are those the store calculates now) assumes that derivations of the history with the same path have the same replacements. Derivations are values: modifying one after Put is not modelled."
  },
  {
   "property": "C68",
   "status": "partial",
   "theorems": [
    "Verif.Props.C68_refuted_never",
    "Verif.Props.C68_refuted",
    "Verif.Props.C68_agree_partial",
    "Verif.Props.C68_exact"
   ],
   "note": "Refuted: BadgerStore loads the replacement of one input derivation only, so it rejects every non-fixed derivation with two or more. Proved for histories of derivations with at most one input derivation and fixed-output derivations. C68_exact: exactly on which histories the two stores accept the same."
  },
  {
   "property": "C69",
   "status": "partial",
   "theorems": [
    "Verif.Props.C69_refuted",
    "Verif.Props.C69_near_partial",
    "Verif.Props.C69_store_path_partial",
    "Verif.Props.C69_exact"
   ],
   "note": "Refuted for \"..\", \"\" and \"/\". Proved: child, directory itself or parent for every path; the direct child, injectively, for store paths; C69_exact says for every path which of the three it is."
  },
  {
   "property": "C70",
   "status": "proved",
   "theorems": [
    "Verif.Props.C70_get",
    "Verif.Props.C70_has",
    "Verif.Props.C70_url"
   ],
   "note": "The HTTP client is a parameter; the URLs are those of C114."
  },
  {
   "property": "C71",
   "status": "partial",
   "theorems": [
    "Verif.Props.C71_refuted",
    "Verif.Props.C71_dispatch_partial",
    "Verif.Props.C71_unparsable"
   ],
   "note": "Refuted: badger URLs always open the on-disk store at the empty path. Proved for all other schemes. url.Parse is modelled in GoUrl.lean (trusted)."
  },
  {
   "property": "C89",
   "status": "proved",
   "theorems": [
    "Verif.Props.C89_fixed",
    "Verif.Props.C89_other"
   ],
   "note": "sha256 is a parameter."
  },
  {
   "property": "C90",
   "status": "proved",
   "theorems": [
    "Verif.Props.C90_has",
    "Verif.Props.C90_get",
    "Verif.Props.C90_get_iff",
    "Verif.Props.C90_symlink",
    "Verif.Props.C90_read_only"
   ],
   "note": "The file system is a parameter. C90_symlink: Get follows symlinks, which Has reports as an error."
  },
  {
   "property": "C72",
   "status": "partial",
   "theorems": [
    "Verif.Props.C72_line",
    "Verif.Props.C72_refuted",
    "Verif.Props.C72_sound_partial",
    "Verif.Props.C72_ls_partial",
    "Verif.Props.C72_exact",
    "Verif.Props.C72_lost"
   ],
   "note": "Refuted: the early exit compares bytes, the archive is ordered by components, so PATHs with a byte below \"/\" (such as \"-\" or \".\") can lose entries. Proved: the text of every line; for every PATH only matching entries are printed, in order, at most once; exactly them when PATH has no byte below \"/\"; C72_exact and C72_lost say for every PATH and tree which lines are printed and which are lost. Trees the reader handles (C23)."
  },
  {
   "property": "C73",
   "status": "partial",
   "theorems": [
    "Verif.Props.C73_refuted",
    "Verif.Props.C73_cat_partial"
   ],
   "note": "Refuted for truncated archives (prints a part and succeeds). Proved for all complete archives of trees the reader handles. C107 says for every file what is printed."
  },
  {
   "property": "C91",
   "status": "proved",
   "theorems": [
    "Verif.Props.C91_header_bound",
    "Verif.Props.C91_ends",
    "Verif.Props.C91_ls_total",
    "Verif.Props.C91_cat_total"
   ],
   "note": "hterm only says that the input's error is not the model's own marker for an exhausted recursion bound."
  },
  {
   "property": "C92",
   "status": "proved",
   "theorems": [
    "Verif.Props.C92_show",
    "Verif.Props.C92_show_iff"
   ],
   "note": "aterm format on an FSStore; the JSON formats are C108, other stores C142."
  },
  {
   "property": "C93",
   "status": "partial",
   "theorems": [
    "Verif.Props.C93_refuted",
    "Verif.Props.C93_read_partial",
    "Verif.Props.C93_exact"
   ],
   "note": "Refuted for truncated archives with io.EOF. Proved: otherwise io.EOF comes exactly at the announced size; never more data than announced. C93_exact: for every stream, history and buffer sizes, exactly what the Read calls return (Spec/NarReads.lean)."
  },
  {
   "property": "C76",
   "status": "proved",
   "theorems": [
    "Verif.Props.C76_fetcher",
    "Verif.Props.C76_empty"
   ],
   "note": "SQL statements have the meaning given in Model/Sqlite.lean (trusted); no I/O errors, one call at a time."
  },
  {
   "property": "C77",
   "status": "proved",
   "theorems": [
    "Verif.Props.C77_query"
   ],
   "note": "Same trusted SQL semantics; with and without foreign keys."
  },
  {
   "property": "C78",
   "status": "proved",
   "theorems": [
    "Verif.Props.C78_integrity",
    "Verif.Props.C78_ids",
    "Verif.Props.C78_references",
    "Verif.Props.C78_register",
    "Verif.Props.C78_addReference",
    "Verif.Props.C78_invalidate",
    "Verif.Props.C78_update",
    "Verif.Props.C78_outputs",
    "Verif.Props.C78_without_foreign_keys"
   ],
   "note": "Same trusted SQL semantics. With foreign keys on; C78_without_foreign_keys shows what happens with the constructors' default."
  },
  {
   "property": "C94",
   "status": "proved",
   "theorems": [
    "Verif.Props.C94_ids",
    "Verif.Props.C94_query",
    "Verif.Props.C94_foreign_key",
    "Verif.Props.C94_realisation",
    "Verif.Props.C94_last_purge"
   ],
   "note": "Same trusted SQL semantics."
  },
  {
   "property": "C95",
   "status": "proved",
   "theorems": [
    "Verif.Props.C95_attribute",
    "Verif.Props.C95_null_name",
    "Verif.Props.C95_names"
   ],
   "note": "Same trusted SQL semantics."
  },
  {
   "property": "C37",
   "status": "partial",
   "theorems": [
    "Verif.Props.C37_reader_partial",
    "Verif.Props.C37_reader_refuted",
    "Verif.Props.C37_terminates"
   ],
   "note": "Proved for all schedules of all sequences of calls without a Read after Close; with one, a data race and two different results are proved to be reachable."
  },
  {
   "property": "C96",
   "status": "proved",
   "theorems": [
    "Verif.Props.C96_writer",
    "Verif.Props.C37_terminates"
   ],
   "note": "All schedules of all sequences of calls."
  },
  {
   "property": "C97",
   "status": "proved",
   "theorems": [
    "Verif.Props.C97_linearizable"
   ],
   "note": "A Badger transaction is atomic and durable (trusted); if it fails it was committed or not; Put's writing transaction reads nothing, so it is never refused for a conflict."
  },
  {
   "property": "C98",
   "status": "proved",
   "theorems": [
    "Verif.Props.C98_crash_consistent",
    "Verif.Props.C98_put_durable",
    "Verif.Props.C98_never_lost"
   ],
   "note": "Same trusted semantics of Badger."
  },
  {
   "property": "C99",
   "status": "proved",
   "theorems": [
    "Verif.Props.C99_reads",
    "Verif.Props.C99_lax"
   ],
   "note": "Equivalence with the grammar; C99_lax shows texts of the grammar that are no derivations for Nix."
  },
  {
   "property": "C100",
   "status": "proved",
   "theorems": [
    "Verif.Props.C100_language",
    "Verif.Props.C100_contents"
   ],
   "note": "Equivalence with the grammar, including the places where a cut-off archive is taken for a complete one."
  },
  {
   "property": "C101",
   "status": "proved",
   "theorems": [
    "Verif.Props.C101_accepts_iff"
   ],
   "note": "Equivalence; the excluded headers are those of the refutations of C22."
  },
  {
   "property": "C102",
   "status": "proved",
   "theorems": [
    "Verif.Props.C102_parse_any",
    "Verif.Props.C102_panics",
    "Verif.Props.C102_unique"
   ],
   "note": "Equivalence with an explicit grammar (Spec/HashText)."
  },
  {
   "property": "C103",
   "status": "proved",
   "theorems": [
    "Verif.Props.C103_from_string",
    "Verif.Props.C103_from_absolute",
    "Verif.Props.C103_plain"
   ],
   "note": "Equivalence; C103_plain is the simple case without slashes."
  },
  {
   "property": "C104",
   "status": "proved",
   "theorems": [
    "Verif.Props.C104_path_re",
    "Verif.Props.C104_path_re_validate",
    "Verif.Props.C104_name_re"
   ],
   "note": "Semantics of the regular expression fragment in GoRe.lean."
  },
  {
   "property": "C105",
   "status": "proved",
   "theorems": [
    "Verif.Props.C105_history",
    "Verif.Props.C105_put_iff",
    "Verif.Props.C105_get"
   ],
   "note": "The exact version of C68."
  },
  {
   "property": "C106",
   "status": "proved",
   "theorems": [
    "Verif.Props.C106_ls",
    "Verif.Props.C106_ls_open",
    "Verif.Props.C106_ls_accepted"
   ],
   "note": "The exact version of C72, on every file."
  },
  {
   "property": "C107",
   "status": "proved",
   "theorems": [
    "Verif.Props.C107_cat",
    "Verif.Props.C107_cat_open",
    "Verif.Props.C107_cat_accepted"
   ],
   "note": "The exact version of C73, on every file."
  },
  {
   "property": "C108",
   "status": "proved",
   "theorems": [
    "Verif.Props.C108_json",
    "Verif.Props.C108_utf8",
    "Verif.Props.C108_decode",
    "Verif.Props.C108_order",
    "Verif.Props.C108_errors",
    "Verif.Props.C108_read"
   ],
   "note": "encoding/json is modelled on bytes in GoJson.lean (trusted); that it produces and accepts RFC 8259 texts (Spec/Json.lean) is proved."
  },
  {
   "property": "C109",
   "status": "partial",
   "theorems": [
    "Verif.Props.C109_refuted",
    "Verif.Props.C109_refuted_keys",
    "Verif.Props.C109_injective_partial",
    "Verif.Props.C109_read_partial",
    "Verif.Props.C109_exact"
   ],
   "note": "Refuted for strings that are not UTF-8: they are replaced by U+FFFD, so that different derivations print alike and keys can occur twice. Proved for derivations of UTF-8 strings. C109_exact: for all derivations, whatever bytes they contain, which of them are printed alike."
  },
  {
   "property": "C110",
   "status": "partial",
   "theorems": [
    "Verif.Props.C110_name",
    "Verif.Props.C110_plain_partial",
    "Verif.Props.C110_refuted",
    "Verif.Props.C110_read"
   ],
   "note": "Refuted: encoding/json matches the key in any case, so {\"name\":\"a\",\"NAME\":\"b\"} is read as b; the value null panics (also C85). Proved: the exact outcome for every value of __json, through the grammar of JSON (C110_name, C110_read), and the property for objects with one member that says name in any case (C110_plain_partial)."
  },
  {
   "property": "C111",
   "status": "proved",
   "theorems": [
    "Verif.Props.C111_exact",
    "Verif.Props.C111_unique",
    "Verif.Props.C111_panic",
    "Verif.Props.C111_roundtrip"
   ],
   "note": "Data after the first value is ignored (C111_exact has any rest). Spec in Spec/LsText.lean."
  },
  {
   "property": "C112",
   "status": "partial",
   "theorems": [
    "Verif.Props.C112_refuted",
    "Verif.Props.C112_outcome",
    "Verif.Props.C112_panic",
    "Verif.Props.C112_exact"
   ],
   "note": "Refuted (C112_refuted): without NarHash String panics; references of several lines can give a line that is refused; a lone FileHash or FileSize and a carriage return at the end are lost. Proved: the outcome for every parsed value (C112_outcome, C112_panic) and exactly which values survive (C112_exact)."
  },
  {
   "property": "C113",
   "status": "proved",
   "theorems": [
    "Verif.Props.C113_iff",
    "Verif.Props.C113_refuted",
    "Verif.Props.C113_file"
   ],
   "note": "The exact condition is proved; C113_refuted shows what happens to paths with #, ?, %, two leading slashes or a colon. net/url (Go 1.20) is modelled in GoUrl.lean and trusted."
  },
  {
   "property": "C114",
   "status": "proved",
   "theorems": [
    "Verif.Props.C114_request",
    "Verif.Props.C114_store_path",
    "Verif.Props.C114_zone",
    "Verif.Props.C114_opaque",
    "Verif.Props.C114_refuted"
   ],
   "note": "For other base URLs (C114_refuted, C114_opaque): opaque base URLs (http:x) request all derivations at the same URL, http:// makes the derivation name the host, an escaped slash in the base path becomes a slash, and an IP literal with a zone that is not ASCII cannot be requested (C114_zone: exactly then). Proved for all other base URLs. net/url is modelled in GoUrl.lean and trusted."
  },
  {
   "property": "C115",
   "status": "partial",
   "theorems": [
    "Verif.Props.C115_pointer",
    "Verif.Props.C115_values",
    "Verif.Props.C115_refuted"
   ],
   "note": "Refuted in general (C115_refuted: after a successful Put, whatever is written through the pointer is what Get delivers). C115_pointer states exactly what Get delivers for every program; C115_values proves the claim for programs that never modify a derivation after putting it. A derivation is one cell of the heap."
  },
  {
   "property": "C116",
   "status": "partial",
   "theorems": [
    "Verif.Props.C116_open",
    "Verif.Props.C116_values",
    "Verif.Props.C116_reuse",
    "Verif.Props.C116_refuted"
   ],
   "note": "Refuted in general (C116_refuted: an archive with the entry '.' although every call succeeded and the header said /x). Proved for programs that modify only headers of closed nodes (C116_open) and so for those that never modify one after passing it (C116_values); C116_reuse states exactly what reusing the innermost header does."
  },
  {
   "property": "C117",
   "status": "proved",
   "theorems": [
    "Verif.Props.C117_nar_injective",
    "Verif.Props.C117_dump",
    "Verif.Props.C117_sessions"
   ],
   "note": "For all trees with strings that fit into a Go string (< 2^63 bytes). C117_sessions inherits the conditions of C22 (valid header paths without repetition, regular, directory or symlink headers)."
  },
  {
   "property": "C118",
   "status": "proved",
   "theorems": [
    "Verif.Props.C118_dump_read",
    "Verif.Props.C118_exact"
   ],
   "note": "C118_dump_read: for trees that the Reader can read at all (C23): no entry called \")\", names of at most 255 and link targets of at most 4095 bytes. C118_exact: which dumps are read back, exactly."
  },
  {
   "property": "C119",
   "status": "proved",
   "theorems": [
    "Verif.Props.C119_sign_publish_verify",
    "Verif.Props.C119_trust",
    "Verif.Props.C119_check_needed"
   ],
   "note": "Ed25519 is a parameter: correctness (Ed25519.Correct) and unforgeability are hypotheses. C119_check_needed: without Check the conclusion is false (merged references verify)."
  },
  {
   "property": "C120",
   "status": "proved",
   "theorems": [
    "Verif.Props.C120_stores"
   ],
   "note": "For the derivations that can be written and read back (C56: strings closed under quoting, __json consistent) with names of allowed characters; http or https base URLs with a host."
  },
  {
   "property": "C121",
   "status": "proved",
   "theorems": [
    "Verif.Props.C121_refines",
    "Verif.Props.C121_calls",
    "Verif.Props.C121_read_back"
   ],
   "note": "for every reader, including those that return data together with an error other than io.EOF"
  },
  {
   "property": "C122",
   "status": "proved",
   "theorems": [
    "Verif.Props.C122_headers",
    "Verif.Props.C122_contents",
    "Verif.Props.C122_truncated",
    "Verif.Props.C122_progress",
    "Verif.Props.C122_ls",
    "Verif.Props.C122_cat"
   ],
   "note": "Two-run (relational) property. C122_progress assumes the missing end is non-empty and that the end error is not the model's internal out-of-fuel marker (no real error is). Close is excluded: after it Next returns no header."
  },
  {
   "property": "C123",
   "status": "proved",
   "theorems": [
    "Verif.Props.C123_limited",
    "Verif.Props.C123_enough",
    "Verif.Props.C123_complete",
    "Verif.Props.C123_writer"
   ],
   "note": "C123_complete is for file names other than ..foo (C35). The writer that fails is one that accepts k bytes, partially accepts the write that crosses k, and accepts nothing afterwards."
  },
  {
   "property": "C124",
   "status": "proved",
   "theorems": [
    "Verif.Props.C124_parse",
    "Verif.Props.C124_parse_stuck",
    "Verif.Props.C124_parse_full",
    "Verif.Props.C124_readDerivation",
    "Verif.Props.C124_same"
   ],
   "note": "bufio.Scanner.Scan, ScanLines and io.ReadAll are modelled from the Go library source, statement by statement; the three theorems about Parse cover every reader."
  },
  {
   "property": "C125",
   "status": "proved",
   "theorems": [
    "Verif.Props.C125_writer",
    "Verif.Props.C125_dump",
    "Verif.Props.C125_complete",
    "Verif.Props.C125_command",
    "Verif.Props.C125_cat",
    "Verif.Props.C125_derivation",
    "Verif.Props.C125_bytes_writer"
   ],
   "note": "bufio.Writer (Write, Flush) is modelled from the Go library source with its 4096 byte buffer. C125_complete is for file names other than ..foo (C35). For cat, bufio.Writer.ReadFrom and os.File.ReadFrom are modelled as the 32 kB copy loop they end up in."
  },
  {
   "property": "C126",
   "status": "proved",
   "theorems": [
    "Verif.Props.C126_substitute"
   ],
   "note": "Unforgeability is a hypothesis, a collision is an explicit alternative of the conclusion. The publisher's trees have names and link targets within the limits of the reader and nothing after an entry called \")\" but its contents (C23_exact shows that this is needed)."
  },
  {
   "property": "C127",
   "status": "proved",
   "theorems": [
    "Verif.Props.C127_fold",
    "Verif.Props.C127_references",
    "Verif.Props.C127_found",
    "Verif.Props.C127_multi",
    "Verif.Props.C127_tee"
   ],
   "note": "C127_multi and C127_tee: the same under an io.MultiWriter, with writers that may fail. Occurs as in C47: at a distance from the beginning of the run of base-32 characters that is a multiple of 32; of candidates with equal hash parts the last one. Names, targets and contents shorter than 2^56 bytes."
  },
  {
   "property": "C128",
   "status": "proved",
   "theorems": [
    "Verif.Props.C128_alone",
    "Verif.Props.C128_exclusive",
    "Verif.Props.C128_no_waiting",
    "Verif.Props.C128_functions",
    "Verif.Props.C128_close"
   ],
   "note": "C128_functions: ReadBool, WriteBytes, WriteString, ReadBytesFull, ReadString and BytesReader.Close (C128_close) built from these calls are, alone, the functions of Model/Wire. A Read or Write of a device that itself calls pkg/wire is not covered."
  },
  {
   "property": "C129",
   "status": "proved",
   "theorems": [
    "Verif.Props.C129_any_order",
    "Verif.Props.C129_index_order",
    "Verif.Props.C129_needs_order"
   ],
   "note": "Trusted SQL semantics as in C78; that the index is used is the hypothesis IndexOrder of C129_index_order."
  },
  {
   "property": "C130",
   "status": "proved",
   "theorems": [
    "Verif.Props.C130_exact",
    "Verif.Props.C130_close"
   ],
   "note": "Schedules and channels as in C96; that no schedule is infinite is C37_terminates."
  },
  {
   "property": "C131",
   "status": "proved",
   "theorems": [
    "Verif.Props.C131_next"
   ],
   "note": "Headers of other types pass Validate and make the next call panic (C22_refuted_type and the findings); they are excluded here."
  },
  {
   "property": "C132",
   "status": "proved",
   "theorems": [
    "Verif.Props.C132_dump"
   ],
   "note": "The file system is what the dump sees; C144_returns lifts this to file systems that change. The writer accepts some number of bytes and then fails (Sink)."
  },
  {
   "property": "C133",
   "status": "proved",
   "theorems": [
    "Verif.Props.C133_put",
    "Verif.Props.C133_stored",
    "Verif.Props.C133_larger",
    "Verif.Props.C133_badger"
   ],
   "note": "Derivations of the history with the same path are assumed to be the same (no collision of the hash function, see C86), none uses two inputs with the same hash for different outputs (C58), and names consist of the characters allowed in store paths."
  },
  {
   "property": "C134",
   "status": "partial",
   "theorems": [
    "Verif.Props.C134_dump",
    "Verif.Props.C134_http",
    "Verif.Props.C134_fs_exact",
    "Verif.Props.C134_refuted"
   ],
   "note": "Refuted for FSStore.Get, which never closes the file (C134_refuted); C134_fs_exact says exactly how many of n calls succeed. The garbage collector, which closes files nobody refers to at some time, is not modelled. DumpPath and HTTPStore are proved."
  },
  {
   "property": "C135",
   "status": "proved",
   "theorems": [
    "Verif.Props.C135_read",
    "Verif.Props.C135_dump",
    "Verif.Props.C135_round_trip"
   ],
   "note": "The readers are used one after another, not in turns."
  },
  {
   "property": "C136",
   "status": "proved",
   "theorems": [
    "Verif.Props.C136_send",
    "Verif.Props.C136_receive",
    "Verif.Props.C136_exact",
    "Verif.Props.C136_fragmentation",
    "Verif.Props.C136_unique",
    "Verif.Props.C136_cut"
   ],
   "note": ""
  },
  {
   "property": "C137",
   "status": "partial",
   "theorems": [
    "Verif.Props.C137_bytes",
    "Verif.Props.C137_values",
    "Verif.Props.C137_exact",
    "Verif.Props.C137_parsed",
    "Verif.Props.C137_refuted"
   ],
   "note": "Refuted for NewHash (C137_refuted): it keeps the slice of the caller. C137_bytes says for every program what the digest is at every moment; C137_exact: when exactly Format gives the same text, and that the size never changes; C137_parsed: parsed hashes have an array of their own, so they only change through what Digest hands out."
  },
  {
   "property": "C138",
   "status": "partial",
   "theorems": [
    "Verif.Props.C138_wire",
    "Verif.Props.C138_reader",
    "Verif.Props.C138_tree",
    "Verif.Props.C138_refuted"
   ],
   "note": "The blocks allocated are bounded (C138_wire, C138_reader: 4095 bytes are enough for every input). Refuted for the stack (C138_refuted): parseNode calls itself for every nested directory, without a limit. C138_reader: room for one call for every 64 bytes of input always is enough; C138_tree says exactly what is returned before the program ends."
  },
  {
   "property": "C139",
   "status": "partial",
   "theorems": [
    "Verif.Props.C139_show",
    "Verif.Props.C139_cat_dump",
    "Verif.Props.C139_ls",
    "Verif.Props.C139_refuted"
   ],
   "note": "Refuted for nar ls (C139_refuted): it prints with the built-in print, on the standard error, and never learns whether that worked; C139_ls says exactly what it does. Proved for drv show (C139_show); nar cat and nar dump-path write to the standard output only (C139_cat_dump), where what arrives is C125."
  },
  {
   "property": "C140",
   "status": "partial",
   "theorems": [
    "Verif.Props.C140_read",
    "Verif.Props.C140_roundtrip_partial",
    "Verif.Props.C140_exact",
    "Verif.Props.C140_valid",
    "Verif.Props.C140_refuted"
   ],
   "note": "Refuted as stated (C140_refuted): the unexported name of derivations with structured attributes is not in the JSON, so that what is read back is refused by Validate and DrvPath panics. C140_read says what is read back for every derivation; C140_exact that exactly the derivations of UTF-8 strings without that name come back the same; C140_valid that of the valid ones exactly those without __json validate again; C140_roundtrip_partial that then text and path are the same."
  },
  {
   "property": "C141",
   "status": "partial",
   "theorems": [
    "Verif.Props.C141_exact",
    "Verif.Props.C141_valid_partial",
    "Verif.Props.C141_refuted"
   ],
   "note": "Refuted (C141_refuted): {\"outputs\":{\"out\":null}}. C141_exact: Validate may panic exactly if an output with a non-empty name is null; C141_valid_partial: what passes Validate has no nil outputs and is valid as such."
  },
  {
   "property": "C142",
   "status": "proved",
   "theorems": [
    "Verif.Props.C142_show",
    "Verif.Props.C142_printed",
    "Verif.Props.C142_no_store",
    "Verif.Props.C142_dir",
    "Verif.Props.C142_badger",
    "Verif.Props.C142_published"
   ],
   "note": "kong (reading the command line, and whether it decodes the empty default) is not modelled; Badger's Open, the file system and the HTTP client are parameters. C142_printed and C142_published are for derivations of UTF-8 strings (C108 says what happens to others)."
  },
  {
   "property": "C143",
   "status": "proved",
   "theorems": [
    "Verif.Props.C143_encode",
    "Verif.Props.C143_decode",
    "Verif.Props.C143_encode_overlap",
    "Verif.Props.C143_decode_overlap"
   ],
   "note": "The statement is for slices that do not overlap; C143_encode_overlap and C143_decode_overlap show that this is needed."
  },
  {
   "property": "C144",
   "status": "proved",
   "theorems": [
    "Verif.Props.C144_sound",
    "Verif.Props.C144_complete",
    "Verif.Props.C144_returns",
    "Verif.Props.C144_static",
    "Verif.Props.C144_location",
    "Verif.Props.C144_empty"
   ],
   "note": "FileSys.Sane is assumed: directories are listed sorted, with names of files, links have a target, files have less than 2^63 bytes. The depth of the recursion is a parameter; C144_sound holds for every value, C144_complete for all large ones."
  },
  {
   "property": "C145",
   "status": "partial",
   "theorems": [
    "Verif.Props.C145_read",
    "Verif.Props.C145_hash",
    "Verif.Props.C145_refuted",
    "Verif.Props.C145_hash_refuted"
   ],
   "note": "Refuted as stated (C145_refuted, C145_hash_refuted); C145_read and C145_hash say exactly when there is a value beside the error and what it is. What base64 decoding leaves beside an error is a parameter."
  },
  {
   "property": "C146",
   "status": "proved",
   "theorems": [
    "Verif.Props.C146_appends",
    "Verif.Props.C146_in_step"
   ],
   "note": "Under the conditions of C22 and C24 on the headers. The sink takes every Write at once (a bytes.Buffer or the writing end of a pipe)."
  },
  {
   "property": "C147",
   "status": "partial",
   "theorems": [
    "Verif.Props.C147_refuted_partial",
    "Verif.Props.C147_race_partial",
    "Verif.Props.C147_alone"
   ],
   "note": "False as stated (C147_refuted_partial; C147_race_partial: for every accepted Put and every other accepted call, from every reachable idle store). C147_alone: no race and linearizable for all histories in which no Put overlaps another call. The reads of one function (CalculateOutputPaths, CalculateDrvReplacement) are one access."
  },
  {
   "property": "C148",
   "status": "proved",
   "theorems": [
    "Verif.Props.C148_stable",
    "Verif.Props.C148_result",
    "Verif.Props.C148_keeping"
   ],
   "note": "C148_result: the parser on slices returns what the parser on values returns (also errors), and touches no existing array. C148_keeping: with a reader that keeps the slices and assigns to them later the derivation changes, so the condition on readers is needed. Writers that modify what they are given (unsafeBytes) are not modelled."
  },
  {
   "property": "C149",
   "status": "proved",
   "theorems": [
    "Verif.Props.C149_exact",
    "Verif.Props.C149_unique",
    "Verif.Props.C149_refused"
   ],
   "note": "encoding/json is trusted (Model/DrvJson.lean, GoJson.lean). Derivations are compared up to the order of their maps; nil and empty lists and maps are not distinguished. Spec in Spec/DrvText.lean."
  },
  {
   "property": "C150",
   "status": "proved",
   "theorems": [
    "Verif.Props.C150_serial",
    "Verif.Props.C150_isolated",
    "Verif.Props.C150_nix"
   ],
   "note": "New/WithTx and the choice of the handle are the code's; what the handles do (database/sql with SQLite: deferred transactions, one writer, snapshot reads, SQLITE_BUSY, rollback on crash) is trusted and written out in Model/SqliteTx.lean. In-memory databases are not modelled."
  },
  {
   "property": "C151",
   "status": "proved",
   "theorems": [
    "Verif.Props.C151_many",
    "Verif.Props.C151_one",
    "Verif.Props.C151_released",
    "Verif.Props.C151_hash_part",
    "Verif.Props.C151_references"
   ],
   "note": "The generated code of all list queries is the same, modelled once for any row type. database/sql (QueryContext, Rows, Row) is modelled from its source and trusted. Fields already assigned when Scan fails on a later column are not modelled (the value beside an error)."
  },
  {
   "property": "C152",
   "status": "proved",
   "theorems": [
    "Verif.Props.C152_sound",
    "Verif.Props.C152_complete",
    "Verif.Props.C152_returns",
    "Verif.Props.C152_pure",
    "Verif.Props.C152_none",
    "Verif.Props.C152_static",
    "Verif.Props.C152_asked"
   ],
   "note": "A filter that panics is not modelled. Names like ..foo cannot be written (C21); C152_complete needs their absence in what is taken only."
  },
  {
   "property": "C153",
   "status": "proved",
   "theorems": [
    "Verif.Props.C153_truncated",
    "Verif.Props.C153_lax",
    "Verif.Props.C153_failed_write",
    "Verif.Props.C153_stores"
   ],
   "note": "C153_lax shows that the restriction to the format of Nix is needed."
  },
  {
   "property": "C154",
   "status": "proved",
   "theorems": [
    "Verif.Props.C154_signed",
    "Verif.Props.C154_verified",
    "Verif.Props.C154_printed",
    "Verif.Props.C154_unsigned"
   ],
   "note": "C154_unsigned states what is not detected."
  },
  {
   "property": "C155",
   "status": "proved",
   "theorems": [
    "Verif.Props.C155_beginning",
    "Verif.Props.C155_show",
    "Verif.Props.C155_newline"
   ],
   "note": "encoding/json is trusted (GoJson.lean, Model/DrvJson.lean)."
  },
  {
   "property": "C156",
   "status": "proved",
   "theorems": [
    "Verif.Props.C156_more",
    "Verif.Props.C156_cut",
    "Verif.Props.C156_beginning"
   ],
   "note": "encoding/json is trusted (GoJson.lean, Model/LsText.lean)."
  },
  {
   "property": "C157",
   "status": "proved",
   "theorems": [
    "Verif.Props.C157_cut",
    "Verif.Props.C157_printed"
   ],
   "note": ""
  },
  {
   "property": "C158",
   "status": "partial",
   "theorems": [
    "Verif.Props.C158_refuted",
    "Verif.Props.C158_exact",
    "Verif.Props.C158_accepts",
    "Verif.Props.C158_base64",
    "Verif.Props.C158_nixbase32"
   ],
   "note": "Refuted (C158_refuted): the encoding is told from the length, so a hexadecimal or nixbase32 hash cut off at the length of base64 is always read, as a hash of another size (C158_accepts). C158_exact says for every text and cut when the rest is read and as what. Proved as stated for base64 and SRI texts (C158_base64) and for ParseNixBase32 (C158_nixbase32)."
  },
  {
   "property": "C159",
   "status": "proved",
   "theorems": [
    "Verif.Props.C159_digest",
    "Verif.Props.C159_exact",
    "Verif.Props.C159_unnoticed"
   ],
   "note": "C159_unnoticed: so a truncated store path is in general not refused; names have no end mark."
  },
  {
   "property": "C160",
   "status": "partial",
   "theorems": [
    "Verif.Props.C160_refuted",
    "Verif.Props.C160_width_partial",
    "Verif.Props.C160_64",
    "Verif.Props.C160_exact",
    "Verif.Props.C160_read"
   ],
   "note": "Refuted for an int of 32 bits (C160_refuted): encoding 256 MiB panics and 512 MiB are encoded as the empty text. Proved for 64 bits and all lengths below 2^60 (C160_64), and for every width for the lengths that do not overflow (C160_width_partial; C160_exact: for no others). C160_read: the limits below 2^31 in use give the same on both."
  },
  {
   "property": "C161",
   "status": "partial",
   "theorems": [
    "Verif.Props.C161_refuted",
    "Verif.Props.C161_exact",
    "Verif.Props.C161_printed",
    "Verif.Props.C161_64"
   ],
   "note": "Refuted (C161_refuted): the sizes are read with strconv.ParseUint(v, 10, 0), so on a machine with 32-bit int every narinfo of an archive of 4 GiB or more is refused, although the fields are uint64. C161_exact: for every width and input, the result is that of a machine with 64 bits, exactly if all sizes in the text are below 2^w; C161_printed: what is printed for such sizes is read back."
  },
  {
   "property": "C162",
   "status": "partial",
   "theorems": [
    "Verif.Props.C162_once",
    "Verif.Props.C162_exact",
    "Verif.Props.C162_refuted"
   ],
   "note": "Proved for all texts with at most one version (C162_once), for every width. Refuted for a listing with two versions of which the first overflows an int of 32 bits (C162_refuted); C162_exact: for every width and text, the result is that of 64 bits, exactly if no version in it overflows."
  },
  {
   "property": "C163",
   "status": "proved",
   "theorems": [
    "Verif.Props.C163_valid",
    "Verif.Props.C163_fixpoint",
    "Verif.Props.C163_put"
   ],
   "note": "Proved for all derivations as Go maps can be, and all histories of Put (C163_put); C163_put also gives that Get returns the derivation. Validity is that of the derivation with some paths, as the derivation without them is not valid."
  },
  {
   "property": "C164",
   "status": "proved",
   "theorems": [
    "Verif.Props.C164_build"
   ],
   "note": "Proved for all programs of this form; the program is written out in Spec/BuildUp.lean. Buildable says what is asked of each derivation when its turn comes: allowed names, no output called name, valid with some output paths, input derivations among those made before."
  },
  {
   "property": "C165",
   "status": "partial",
   "theorems": [
    "Verif.Props.C165_exact",
    "Verif.Props.C165_copy_partial",
    "Verif.Props.C165_canonical",
    "Verif.Props.C165_once",
    "Verif.Props.C165_refuted_dots",
    "Verif.Props.C165_refuted_twice"
   ],
   "note": "C165_canonical: for every stream, if no call failed, the output is the NAR of a tree with the entries returned exactly if no path was returned twice in a row. C165_copy_partial: every tree whose names and nodes neither side refuses (C21, C23) is copied byte for byte; C165_exact: of the trees that the reader takes exactly these are copied, the others end in an error. Refuted as stated: an archive with a directory twice is accepted by the reader and copied, without an error, to an archive with a directory called '.' (C165_refuted_twice); an archive with an entry called ..foo is read but refused by the writer (C165_refuted_dots)."
  },
  {
   "property": "C166",
   "status": "proved",
   "theorems": [
    "Verif.Props.C166_reader",
    "Verif.Props.C166_tree",
    "Verif.Props.C166_needs_names"
   ],
   "note": "C166_tree: trees with valid sorted names and the same headers and contents are the same. C166_reader: so for two complete sessions of readers, by C23. C166_needs_names: with a slash in a name, which the reader refuses, it would be false."
  },
  {
   "property": "C167",
   "status": "proved",
   "theorems": [
    "Verif.Props.C167_again",
    "Verif.Props.C167_needs_paren"
   ],
   "note": "For every stream. C167_needs_paren: without the condition on the name ) it is false: a stream is copied, the copy is copied too, without an error, but with an entry less. With a path twice in a row the copy is an archive with an entry called '.' (C165_refuted_twice)."
  },
  {
   "property": "C168",
   "status": "proved",
   "theorems": [
    "Verif.Props.C168_map",
    "Verif.Props.C168_canonical",
    "Verif.Props.C168_once"
   ],
   "note": "C168_canonical: for every stream, what was written without an error is the archive of a tree with the entries given exactly if paths, sizes and types are proper and no path came twice in a row. The program as a relation (Spec/MapNar.lean), deterministic by C168_once. C165 is the case in which headers are not changed."
  },
  {
   "property": "C169",
   "status": "proved",
   "theorems": [
    "Verif.Props.C169_extract",
    "Verif.Props.C168_once"
   ],
   "note": "For the trees that the reader takes, if the writer refuses nothing of the part; for the root itself it is C165."
  },
  {
   "property": "C170",
   "status": "proved",
   "theorems": [
    "Verif.Props.C170_filter",
    "Verif.Props.C170_needs_hereditary"
   ],
   "note": "For the names and nodes that neither the reader nor the writer refuses. C170_needs_hereditary: with a filter that rejects a directory but lets through what is in it, the dump succeeds and the copy fails."
  },
  {
   "property": "C171",
   "status": "proved",
   "theorems": [
    "Verif.Props.C171_merge",
    "Verif.Props.C171_once",
    "Verif.Props.C171_needs_order"
   ],
   "note": "For trees that the reader takes and a directory of which the writer refuses nothing. C171_needs_order: in the other order the copy fails."
  },
  {
   "property": "C172",
   "status": "proved",
   "theorems": [
    "Verif.Props.C172_unpack"
   ],
   "note": "For trees that the reader takes; the dump, if the writer refuses nothing of the tree (C35)."
  }
 ]
}