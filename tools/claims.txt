C01 | proved | C01_decode_encode | 
C02 | proved | C02_decode_iff_encode C02_unique C02_encode_injective |
C03 | proved | C03_encode_is_numeral C03_encode_buffer C143_encode | Encode panics on a too small buffer. C03_encode_buffer is about separate buffers, where the model writes the loop as a list; C143_encode proves the same of the loop that stores digit after digit into one memory.
C04 | partial | C04_validate_decode_partial C04_refuted C04_exact | The full equivalence is false (C04_refuted: "z"); agreement holds on all encoded lengths, decoding success always implies validity, and C04_exact says for every string when the two answers differ: exactly one extra alphabet character in front that leaves a non-encoded length.
C05 | partial | C05_no_panic C05_decode_valid C05_decode_zeroed C05_success_length C05_frame_partial C05_frame_refuted C05_frame_exact C05_string | "touches only the first DecodedLen bytes" is false for sources of non-canonical length (C05_frame_refuted); C05_frame_exact bounds the damage for every input: at most the one byte at index DecodedLen, and only at a non-canonical length. Everything else is proved.
C06 | proved | C06_is_iff |
C07 | proved | C07_parse_format |
C08 | partial | C08_digest_size_partial C08_refuted C08_refuted_newlines C08_exact | False for base64: unpadded or newline-containing text of the right length gives a digest of another size. C08_exact: for every accepted text, a base64 digest has the right size if and only if the text has no newline and the canonical number of "="; base16 and nixbase32 digests always have it.
C09 | proved | C09_algo_enforced C09_mismatch_rejected |
C10 | proved | C10_reparse |
C11 | proved | C11_parseNixBase32_iff C11_must_parse |
C12 | proved | C12_compress C12_linear C12_panic_iff |
C13 | proved | C13_uint64 C13_bool C13_bool_rejects C13_short |
C14 | proved | C14_bytes |
C15 | proved | C15_limit C15_limit_error |
C16 | partial | C16_readBytesFull_refuted C16_close_partial C16_close_truncated_content C16_exact | BytesReader.Close enforces zero padding (proved, iff); ReadBytesFull drops the error of its deferred Close, so non-zero or missing padding is accepted there (refuted). C16_exact: for every input, when ReadBytesFull succeeds and where it leaves the reader.
C17 | proved | C17_bytes_reader C17_read_all C17_close_refuted | for every reader; C17_close_refuted: Close may return an error although the packet is complete, when the underlying reader reports an error other than io.EOF together with the last byte of it
C18 | proved | C18_bytes_writer C18_closed_is_packet C18_spec_closed C18_prefix_of_packet C18_overflow | C18_overflow: beyond 2^64 the counter wraps, and the claim is false.
C19 | proved | C19_fragmentation C19_stream C19_close_refuted | for every reader, including those that return data together with an error; C19_close_refuted: the one case in which the result of BytesReader.Close (not of a read function) depends on the fragmentation
C20 | proved | C20_wire_sink_failure C20_writer_sink_failure C20_newWriter_sink_failure | Wire functions and nar.Writer.
C33 | partial | C33_refuted C33_order_partial C33_exact_above_slash C33_complete_total | Refuted as stated ("/a-b" before "/a/b"); exact characterisation proved; exact for paths without bytes below '/'.
C34 | proved | C34_validate_iff |
C38 | partial | C38_refuted C38_permissions_partial C38_windows C38_info | ModeDir is never set and symlinks have write bits; permission bits of files and directories proved. C38_windows: the bits of the Windows variant, where ModeDir is right but Executable is ignored.
C75 | proved | C75_valid_name_iff |
C23 | partial | C23_refuted C23_refuted_path C23_read_back_partial C23_read_last C23_exact C23_rest_exact C23_condition | An entry called ")" ends its directory (C23_refuted); nested ones make the reader report files at other paths (C23_refuted_path). Proved exactly when a tree is read back (C23_exact, iff): within the documented length limits, and whatever comes after an entry called ")" is inside it; with contents for any sizes of Read calls and any data after the archive (C23_read_last); and when exactly the archive is consumed (C23_rest_exact).
C25 | proved | C25_paths_clean |
C26 | proved | C26_order C26_rejects C26_unordered C26_tree C26_unsorted |
C27 | proved | C27_sticky |
C28 | proved | C28_reading_irrelevant |
C29 | partial | C29_refuted C29_eof_partial C29_io_error_partial  C100_language | A truncated archive can give io.EOF (refuted as stated); io.EOF otherwise means a complete archive in the relaxed format. C100_language lists exactly the places where a cut is not noticed.
C30 | partial | C30_refuted C30_refuted_not_nar C30_grammar_partial  C100_language | Refuted as stated; soundness with respect to an explicit relaxed grammar proved. C100_language: exactly this language is accepted.
C31 | proved | C31_headers_consistent |
C32 | partial | C32_refuted C32_close_partial | Goroutine leak (refuted as stated); exact condition for termination proved.
C79 | proved | C79_next_total |
C21 | partial | C21_refuted C21_writes_nar_partial C21_exact | Entries called like ..foo are refused (refuted as stated); proved for all other trees and all ways of splitting the contents. C21_exact: for every tree the calls all succeed exactly when no entry is called like ..foo and no symlink has an empty target.
C22 | partial | C22_refuted C22_refuted_twice C22_refuted_type C22_valid_nar_partial C22_exact | Refuted for unclean paths, repeated directory headers and unknown types; proved otherwise. C22_exact: for every successful history, the claim holds if and only if paths are clean, types known, sizes not negative and no path is given twice in a row.
C24 | partial | C24_reader_inverts_writer_partial C24_exact | C24_exact: for every history under the conditions of C22, exactly when the reader returns what was written (length limits, nothing after an entry called ")" but its contents), and then also the data.
C36 | partial | C36_refuted_blocks C36_refuted_close C36_after_error_partial | Refuted as stated; the exact behaviour after an error is proved.
C35 | partial | C35_refuted_name C35_refuted_root C35_dump_filter_partial C35_dump_partial C35_exact | Refuted for names like ..foo and a rejected root; otherwise proved (iff and output). C35_exact: for every file system tree, with errors of Readlink, ReadDir, Open and Read anywhere, nil is returned exactly when every node that is reached can be read, the root is kept and no kept entry is called like ..foo; then the output is the NAR of what the filter left.
C39 | partial | C39_refuted_leaf C39_refuted_panic C39_ls_partial | Refuted for leaves and null entries; exact acceptance condition proved.
C40 | partial | C40_refuted C40_validate_partial | Refuted; exact acceptance condition proved.
C41 | proved | C41_roundtrip | 
C42 | partial | C42_refuted C42_from_string_partial C42_accepts_partial C42_exact | Refuted for strings with slashes or a wrong separator; otherwise proved. C42_exact: for every accepted string, exactly when the claim holds (which strings are accepted is C103).
C43 | partial | C43_refuted C43_prefix_partial C43_store_partial | Refuted: the prefix is ignored; exact behaviour proved.
C44 | proved | C44_no_panic | 
C45 | proved | C45_chunking | 
C46 | proved | C46_sound | 
C47 | partial | C47_refuted C47_complete_partial C47_after_slash_partial | Refuted for misaligned occurrences; exact characterisation proved.
C48 | proved | C48_sorted | 
C74 | proved | C74_new_scanner | 
C80 | proved | C80_new_hash | 
C81 | proved | C81_algo_names | 
C82 | proved | C82_format_injective | 
C49 | proved | C49_roundtrip | Hypotheses: what Parse itself guarantees of its results (WellFormed); String drops FileHash/FileSize unless both are set, an empty Compression and an empty Deriver.
C50 | proved | C50_accepts C50_result | 
C51 | partial | C51_refuted C51_injective_partial C51_strict_partial C51_published C51_exact C51_refs | Refuted: Check lets through references with "/../" and commas; injectivity proved when store paths have no semicolon and references no comma. C51_published: enough that one of the two values is strictly well-formed and the other one passes Check. C51_exact: for store paths without semicolon, exactly when two fingerprints are equal (references equal after splitting at ",/nix/store/").
C52 | proved | C52_check_iff C52_parsed_no_panic | 
C53 | proved | C53_roundtrip C53_accepts | 
C54 | proved | C54_first_match C54_sound | ed25519 is a parameter.
C55 | proved | C55_sign_verify | Correctness of ed25519 is an explicit hypothesis on the parameter.
C56 | proved | C56_roundtrip | 
C57 | proved | C57_sorted C57_order | 
C59 | proved | C59_escape | 
C60 | proved | C60_order C60_any_input | 
C61 | partial | C61_refuted C61_rewrite_partial C61_any_partial C61_exact | Refuted: builder and platform are escaped on write but not unescaped on read. Proved for texts of the ATerm grammar whose strings are in the form the writer uses. C61_any_partial: the same for every accepted text, if the strings read can stand between quotes. C61_exact: for every accepted text, without any condition on the strings: it is given back exactly if it is the layout of its strings as they are, with escaped environment values, and platform and builder have nothing to escape.
C62 | partial | C62_refuted C62_verdict_partial C62_validate_partial C62_exact | Refuted: the verdict can depend on map order. Proved exactly when it does (C62_exact): the derivation is otherwise well-formed, the env has both __json and name, and there is no structured name.
C83 | proved | C83_sink_failure | 
C84 | proved | C84_write_injective | 
C85 | partial | C85_refuted C85_read_no_panic_partial C85_exact | Refuted: an env variable __json with the JSON value null makes the parser read through a nil pointer. Proved that this is the only panic; with the model of encoding/json, the texts that panic are described exactly (C85_exact).
C58 | partial | C58_refuted C58_order_partial C58_exact | Refuted: two input derivations with the same replacement overwrite each other in map order. Proved exactly when the text depends on the order (C58_exact): two input derivations used with different outputs share a replacement, and every input has one (Ambiguous).
C63 | proved | C63_self_reference C63_name | 
C64 | proved | C64_fixed_output | 
C65 | proved | C65_drv_path C65_order | sha256 is a parameter.
C66 | partial | C66_refuted C66_no_panic_partial C66_exact C66_valid | Refuted: an empty name passes Validate. Proved exactly when the operations panic (C66_exact: the name is empty) and which valid derivations those are (C66_valid).
C86 | partial | C86_refuted C86_injective_partial C86_files C86_exact | Refuted: arguments are written without escaping. Proved when unescaped strings can stand between quotes (platform, builder and environment values are arbitrary), so for all derivations read from files in the format (C86_files: equal, not just the same contents). C86_exact: for all valid derivations, when the paths are the same and when the hashed texts are.
C87 | proved | C87_distinct | 
C88 | proved | C88_output_paths C88_fails_iff | 
C67 | proved | C67_map C67_failed_put C67_put_iff C67_checked | sha256 is a parameter; C67_checked (the output paths are those the store calculates now) assumes that derivations of the history with the same path have the same replacements. Derivations are values: modifying one after Put is not modelled.
C68 | partial | C68_refuted_never C68_refuted C68_agree_partial C68_exact | Refuted: BadgerStore loads the replacement of one input derivation only, so it rejects every non-fixed derivation with two or more. Proved for histories of derivations with at most one input derivation and fixed-output derivations. C68_exact: exactly on which histories the two stores accept the same.
C69 | partial | C69_refuted C69_near_partial C69_store_path_partial C69_exact | Refuted for "..", "" and "/". Proved: child, directory itself or parent for every path; the direct child, injectively, for store paths; C69_exact says for every path which of the three it is.
C70 | proved | C70_get C70_has C70_url | The HTTP client is a parameter; the URLs are those of C114.
C71 | partial | C71_refuted C71_dispatch_partial C71_unparsable | Refuted: badger URLs always open the on-disk store at the empty path. Proved for all other schemes. url.Parse is modelled in GoUrl.lean (trusted).
C89 | proved | C89_fixed C89_other | sha256 is a parameter.
C90 | proved | C90_has C90_get C90_get_iff C90_symlink C90_read_only | The file system is a parameter. C90_symlink: Get follows symlinks, which Has reports as an error.
C72 | partial | C72_line C72_refuted C72_sound_partial C72_ls_partial C72_exact C72_lost | Refuted: the early exit compares bytes, the archive is ordered by components, so PATHs with a byte below "/" (such as "-" or ".") can lose entries. Proved: the text of every line; for every PATH only matching entries are printed, in order, at most once; exactly them when PATH has no byte below "/"; C72_exact and C72_lost say for every PATH and tree which lines are printed and which are lost. Trees the reader handles (C23).
C73 | partial | C73_refuted C73_cat_partial | Refuted for truncated archives (prints a part and succeeds). Proved for all complete archives of trees the reader handles. C107 says for every file what is printed.
C91 | proved | C91_header_bound C91_ends C91_ls_total C91_cat_total | hterm only says that the input's error is not the model's own marker for an exhausted recursion bound.
C92 | proved | C92_show C92_show_iff | aterm format on an FSStore; the JSON formats are C108, other stores C142.
C93 | partial | C93_refuted C93_read_partial C93_exact | Refuted for truncated archives with io.EOF. Proved: otherwise io.EOF comes exactly at the announced size; never more data than announced. C93_exact: for every stream, history and buffer sizes, exactly what the Read calls return (Spec/NarReads.lean).
C76 | proved | C76_fetcher C76_empty | SQL statements have the meaning given in Model/Sqlite.lean (trusted); no I/O errors, one call at a time.
C77 | proved | C77_query | Same trusted SQL semantics; with and without foreign keys.
C78 | proved | C78_integrity C78_ids C78_references C78_register C78_addReference C78_invalidate C78_update C78_outputs C78_without_foreign_keys | Same trusted SQL semantics. With foreign keys on; C78_without_foreign_keys shows what happens with the constructors' default.
C94 | proved | C94_ids C94_query C94_foreign_key C94_realisation C94_last_purge | Same trusted SQL semantics.
C95 | proved | C95_attribute C95_null_name C95_names | Same trusted SQL semantics.
C37 | partial | C37_reader_partial C37_reader_refuted C37_terminates | Proved for all schedules of all sequences of calls without a Read after Close; with one, a data race and two different results are proved to be reachable.
C96 | proved | C96_writer C37_terminates | All schedules of all sequences of calls.
C97 | proved | C97_linearizable | A Badger transaction is atomic and durable (trusted); if it fails it was committed or not; Put's writing transaction reads nothing, so it is never refused for a conflict.
C98 | proved | C98_crash_consistent C98_put_durable C98_never_lost | Same trusted semantics of Badger.
C99 | proved | C99_reads C99_lax | Equivalence with the grammar; C99_lax shows texts of the grammar that are no derivations for Nix.
C100 | proved | C100_language C100_contents | Equivalence with the grammar, including the places where a cut-off archive is taken for a complete one.
C101 | proved | C101_accepts_iff | Equivalence; the excluded headers are those of the refutations of C22.
C102 | proved | C102_parse_any C102_panics C102_unique | Equivalence with an explicit grammar (Spec/HashText).
C103 | proved | C103_from_string C103_from_absolute C103_plain | Equivalence; C103_plain is the simple case without slashes.
C104 | proved | C104_path_re C104_path_re_validate C104_name_re | Semantics of the regular expression fragment in GoRe.lean.
C105 | proved | C105_history C105_put_iff C105_get | The exact version of C68.
C106 | proved | C106_ls C106_ls_open C106_ls_accepted | The exact version of C72, on every file.
C107 | proved | C107_cat C107_cat_open C107_cat_accepted | The exact version of C73, on every file.
C108 | proved | C108_json C108_utf8 C108_decode C108_order C108_errors C108_read | encoding/json is modelled on bytes in GoJson.lean (trusted); that it produces and accepts RFC 8259 texts (Spec/Json.lean) is proved.
C109 | partial | C109_refuted C109_refuted_keys C109_injective_partial C109_read_partial C109_exact | Refuted for strings that are not UTF-8: they are replaced by U+FFFD, so that different derivations print alike and keys can occur twice. Proved for derivations of UTF-8 strings. C109_exact: for all derivations, whatever bytes they contain, which of them are printed alike.
C110 | partial | C110_name C110_plain_partial C110_refuted C110_read | Refuted: encoding/json matches the key in any case, so {"name":"a","NAME":"b"} is read as b; the value null panics (also C85). Proved: the exact outcome for every value of __json, through the grammar of JSON (C110_name, C110_read), and the property for objects with one member that says name in any case (C110_plain_partial).
C111 | proved | C111_exact C111_unique C111_panic C111_roundtrip | Data after the first value is ignored (C111_exact has any rest). Spec in Spec/LsText.lean.
C112 | partial | C112_refuted C112_outcome C112_panic C112_exact | Refuted (C112_refuted): without NarHash String panics; references of several lines can give a line that is refused; a lone FileHash or FileSize and a carriage return at the end are lost. Proved: the outcome for every parsed value (C112_outcome, C112_panic) and exactly which values survive (C112_exact).
C113 | proved | C113_iff C113_refuted C113_file | The exact condition is proved; C113_refuted shows what happens to paths with #, ?, %, two leading slashes or a colon. net/url (Go 1.20) is modelled in GoUrl.lean and trusted.
C114 | proved | C114_request C114_store_path C114_zone C114_opaque C114_refuted | For other base URLs (C114_refuted, C114_opaque): opaque base URLs (http:x) request all derivations at the same URL, http:// makes the derivation name the host, an escaped slash in the base path becomes a slash, and an IP literal with a zone that is not ASCII cannot be requested (C114_zone: exactly then). Proved for all other base URLs. net/url is modelled in GoUrl.lean and trusted.
C115 | partial | C115_pointer C115_values C115_refuted | Refuted in general (C115_refuted: after a successful Put, whatever is written through the pointer is what Get delivers). C115_pointer states exactly what Get delivers for every program; C115_values proves the claim for programs that never modify a derivation after putting it. A derivation is one cell of the heap.
C116 | partial | C116_open C116_values C116_reuse C116_refuted | Refuted in general (C116_refuted: an archive with the entry '.' although every call succeeded and the header said /x). Proved for programs that modify only headers of closed nodes (C116_open) and so for those that never modify one after passing it (C116_values); C116_reuse states exactly what reusing the innermost header does.
C117 | proved | C117_nar_injective C117_dump C117_sessions | For all trees with strings that fit into a Go string (< 2^63 bytes). C117_sessions inherits the conditions of C22 (valid header paths without repetition, regular, directory or symlink headers).
C118 | proved | C118_dump_read C118_exact | C118_dump_read: for trees that the Reader can read at all (C23): no entry called ")", names of at most 255 and link targets of at most 4095 bytes. C118_exact: which dumps are read back, exactly.
C119 | proved | C119_sign_publish_verify C119_trust C119_check_needed | Ed25519 is a parameter: correctness (Ed25519.Correct) and unforgeability are hypotheses. C119_check_needed: without Check the conclusion is false (merged references verify).
C120 | proved | C120_stores | For the derivations that can be written and read back (C56: strings closed under quoting, __json consistent) with names of allowed characters; http or https base URLs with a host.
C121 | proved | C121_refines C121_calls C121_read_back | for every reader, including those that return data together with an error other than io.EOF
C122 | proved | C122_headers C122_contents C122_truncated C122_progress C122_ls C122_cat | Two-run (relational) property. C122_progress assumes the missing end is non-empty and that the end error is not the model's internal out-of-fuel marker (no real error is). Close is excluded: after it Next returns no header.
C123 | proved | C123_limited C123_enough C123_complete C123_writer | C123_complete is for file names other than ..foo (C35). The writer that fails is one that accepts k bytes, partially accepts the write that crosses k, and accepts nothing afterwards.
C124 | proved | C124_parse C124_parse_stuck C124_parse_full C124_readDerivation C124_same | bufio.Scanner.Scan, ScanLines and io.ReadAll are modelled from the Go library source, statement by statement; the three theorems about Parse cover every reader.
C125 | proved | C125_writer C125_dump C125_complete C125_command C125_cat C125_derivation C125_bytes_writer | bufio.Writer (Write, Flush) is modelled from the Go library source with its 4096 byte buffer. C125_complete is for file names other than ..foo (C35). For cat, bufio.Writer.ReadFrom and os.File.ReadFrom are modelled as the 32 kB copy loop they end up in.
C126 | proved | C126_substitute | Unforgeability is a hypothesis, a collision is an explicit alternative of the conclusion. The publisher's trees have names and link targets within the limits of the reader and nothing after an entry called ")" but its contents (C23_exact shows that this is needed).
C127 | proved | C127_fold C127_references C127_found C127_multi C127_tee | C127_multi and C127_tee: the same under an io.MultiWriter, with writers that may fail. Occurs as in C47: at a distance from the beginning of the run of base-32 characters that is a multiple of 32; of candidates with equal hash parts the last one. Names, targets and contents shorter than 2^56 bytes.
C128 | proved | C128_alone C128_exclusive C128_no_waiting C128_functions C128_close | C128_functions: ReadBool, WriteBytes, WriteString, ReadBytesFull, ReadString and BytesReader.Close (C128_close) built from these calls are, alone, the functions of Model/Wire. A Read or Write of a device that itself calls pkg/wire is not covered.
C129 | proved | C129_any_order C129_index_order C129_needs_order | Trusted SQL semantics as in C78; that the index is used is the hypothesis IndexOrder of C129_index_order.
C130 | proved | C130_exact C130_close | Schedules and channels as in C96; that no schedule is infinite is C37_terminates.
C131 | proved | C131_next | Headers of other types pass Validate and make the next call panic (C22_refuted_type and the findings); they are excluded here.
C132 | proved | C132_dump | The file system is what the dump sees; C144_returns lifts this to file systems that change. The writer accepts some number of bytes and then fails (Sink).
C133 | proved | C133_put C133_stored C133_larger C133_badger | Derivations of the history with the same path are assumed to be the same (no collision of the hash function, see C86), none uses two inputs with the same hash for different outputs (C58), and names consist of the characters allowed in store paths.
C134 | partial | C134_dump C134_http C134_fs_exact C134_refuted | Refuted for FSStore.Get, which never closes the file (C134_refuted); C134_fs_exact says exactly how many of n calls succeed. The garbage collector, which closes files nobody refers to at some time, is not modelled. DumpPath and HTTPStore are proved.
C135 | proved | C135_read C135_dump C135_round_trip | The readers are used one after another, not in turns.
C136 | proved | C136_send C136_receive C136_exact C136_fragmentation C136_unique C136_cut | 
C137 | partial | C137_bytes C137_values C137_exact C137_parsed C137_refuted | Refuted for NewHash (C137_refuted): it keeps the slice of the caller. C137_bytes says for every program what the digest is at every moment; C137_exact: when exactly Format gives the same text, and that the size never changes; C137_parsed: parsed hashes have an array of their own, so they only change through what Digest hands out.
C138 | partial | C138_wire C138_reader C138_tree C138_refuted | The blocks allocated are bounded (C138_wire, C138_reader: 4095 bytes are enough for every input). Refuted for the stack (C138_refuted): parseNode calls itself for every nested directory, without a limit. C138_reader: room for one call for every 64 bytes of input always is enough; C138_tree says exactly what is returned before the program ends.
C139 | partial | C139_show C139_cat_dump C139_ls C139_refuted | Refuted for nar ls (C139_refuted): it prints with the built-in print, on the standard error, and never learns whether that worked; C139_ls says exactly what it does. Proved for drv show (C139_show); nar cat and nar dump-path write to the standard output only (C139_cat_dump), where what arrives is C125.
C140 | partial | C140_read C140_roundtrip_partial C140_exact C140_valid C140_refuted | Refuted as stated (C140_refuted): the unexported name of derivations with structured attributes is not in the JSON, so that what is read back is refused by Validate and DrvPath panics. C140_read says what is read back for every derivation; C140_exact that exactly the derivations of UTF-8 strings without that name come back the same; C140_valid that of the valid ones exactly those without __json validate again; C140_roundtrip_partial that then text and path are the same.
C141 | partial | C141_exact C141_valid_partial C141_refuted | Refuted (C141_refuted): {"outputs":{"out":null}}. C141_exact: Validate may panic exactly if an output with a non-empty name is null; C141_valid_partial: what passes Validate has no nil outputs and is valid as such.
C142 | proved | C142_show C142_printed C142_no_store C142_dir C142_badger C142_published | kong (reading the command line, and whether it decodes the empty default) is not modelled; Badger's Open, the file system and the HTTP client are parameters. C142_printed and C142_published are for derivations of UTF-8 strings (C108 says what happens to others).
C143 | proved | C143_encode C143_decode C143_encode_overlap C143_decode_overlap | The statement is for slices that do not overlap; C143_encode_overlap and C143_decode_overlap show that this is needed.
C144 | proved | C144_sound C144_complete C144_returns C144_static C144_location C144_empty | FileSys.Sane is assumed: directories are listed sorted, with names of files, links have a target, files have less than 2^63 bytes. The depth of the recursion is a parameter; C144_sound holds for every value, C144_complete for all large ones.
C145 | partial | C145_read C145_hash C145_refuted C145_hash_refuted | Refuted as stated (C145_refuted, C145_hash_refuted); C145_read and C145_hash say exactly when there is a value beside the error and what it is. What base64 decoding leaves beside an error is a parameter.
C146 | proved | C146_appends C146_in_step | Under the conditions of C22 and C24 on the headers. The sink takes every Write at once (a bytes.Buffer or the writing end of a pipe).
C147 | partial | C147_refuted_partial C147_race_partial C147_alone | False as stated (C147_refuted_partial; C147_race_partial: for every accepted Put and every other accepted call, from every reachable idle store). C147_alone: no race and linearizable for all histories in which no Put overlaps another call. The reads of one function (CalculateOutputPaths, CalculateDrvReplacement) are one access.
C148 | proved | C148_stable C148_result C148_keeping | C148_result: the parser on slices returns what the parser on values returns (also errors), and touches no existing array. C148_keeping: with a reader that keeps the slices and assigns to them later the derivation changes, so the condition on readers is needed. Writers that modify what they are given (unsafeBytes) are not modelled.
C149 | proved | C149_exact C149_unique C149_refused | encoding/json is trusted (Model/DrvJson.lean, GoJson.lean). Derivations are compared up to the order of their maps; nil and empty lists and maps are not distinguished. Spec in Spec/DrvText.lean.
C150 | proved | C150_serial C150_isolated C150_nix | New/WithTx and the choice of the handle are the code's; what the handles do (database/sql with SQLite: deferred transactions, one writer, snapshot reads, SQLITE_BUSY, rollback on crash) is trusted and written out in Model/SqliteTx.lean. In-memory databases are not modelled.
C151 | proved | C151_many C151_one C151_released C151_hash_part C151_references | The generated code of all list queries is the same, modelled once for any row type. database/sql (QueryContext, Rows, Row) is modelled from its source and trusted. Fields already assigned when Scan fails on a later column are not modelled (the value beside an error).
C152 | proved | C152_sound C152_complete C152_returns C152_pure C152_none C152_static C152_asked | A filter that panics is not modelled. Names like ..foo cannot be written (C21); C152_complete needs their absence in what is taken only.
C153 | proved | C153_truncated C153_lax C153_failed_write C153_stores | C153_lax shows that the restriction to the format of Nix is needed.
C154 | proved | C154_signed C154_verified C154_printed C154_unsigned | C154_unsigned states what is not detected.
C155 | proved | C155_beginning C155_show C155_newline | encoding/json is trusted (GoJson.lean, Model/DrvJson.lean).
C156 | proved | C156_more C156_cut C156_beginning | encoding/json is trusted (GoJson.lean, Model/LsText.lean).
C157 | proved | C157_cut C157_printed | 
C158 | partial | C158_refuted C158_exact C158_accepts C158_base64 C158_nixbase32 | Refuted (C158_refuted): the encoding is told from the length, so a hexadecimal or nixbase32 hash cut off at the length of base64 is always read, as a hash of another size (C158_accepts). C158_exact says for every text and cut when the rest is read and as what. Proved as stated for base64 and SRI texts (C158_base64) and for ParseNixBase32 (C158_nixbase32).
C159 | proved | C159_digest C159_exact C159_unnoticed | C159_unnoticed: so a truncated store path is in general not refused; names have no end mark.
C160 | partial | C160_refuted C160_width_partial C160_64 C160_exact C160_read | Refuted for an int of 32 bits (C160_refuted): encoding 256 MiB panics and 512 MiB are encoded as the empty text. Proved for 64 bits and all lengths below 2^60 (C160_64), and for every width for the lengths that do not overflow (C160_width_partial; C160_exact: for no others). C160_read: the limits below 2^31 in use give the same on both.
C161 | partial | C161_refuted C161_exact C161_printed C161_64 | Refuted (C161_refuted): the sizes are read with strconv.ParseUint(v, 10, 0), so on a machine with 32-bit int every narinfo of an archive of 4 GiB or more is refused, although the fields are uint64. C161_exact: for every width and input, the result is that of a machine with 64 bits, exactly if all sizes in the text are below 2^w; C161_printed: what is printed for such sizes is read back.
C162 | partial | C162_once C162_exact C162_refuted | Proved for all texts with at most one version (C162_once), for every width. Refuted for a listing with two versions of which the first overflows an int of 32 bits (C162_refuted); C162_exact: for every width and text, the result is that of 64 bits, exactly if no version in it overflows.
C163 | proved | C163_valid C163_fixpoint C163_put | Proved for all derivations as Go maps can be, and all histories of Put (C163_put); C163_put also gives that Get returns the derivation. Validity is that of the derivation with some paths, as the derivation without them is not valid.
C164 | proved | C164_build | Proved for all programs of this form; the program is written out in Spec/BuildUp.lean. Buildable says what is asked of each derivation when its turn comes: allowed names, no output called name, valid with some output paths, input derivations among those made before.
C165 | partial | C165_exact C165_copy_partial C165_canonical C165_once C165_refuted_dots C165_refuted_twice | C165_canonical: for every stream, if no call failed, the output is the NAR of a tree with the entries returned exactly if no path was returned twice in a row. C165_copy_partial: every tree whose names and nodes neither side refuses (C21, C23) is copied byte for byte; C165_exact: of the trees that the reader takes exactly these are copied, the others end in an error. Refuted as stated: an archive with a directory twice is accepted by the reader and copied, without an error, to an archive with a directory called '.' (C165_refuted_twice); an archive with an entry called ..foo is read but refused by the writer (C165_refuted_dots).
C166 | proved | C166_reader C166_tree C166_needs_names | C166_tree: trees with valid sorted names and the same headers and contents are the same. C166_reader: so for two complete sessions of readers, by C23. C166_needs_names: with a slash in a name, which the reader refuses, it would be false.
C167 | proved | C167_again C167_needs_paren | For every stream. C167_needs_paren: without the condition on the name ) it is false: a stream is copied, the copy is copied too, without an error, but with an entry less. With a path twice in a row the copy is an archive with an entry called '.' (C165_refuted_twice).
C168 | proved | C168_map C168_canonical C168_once | C168_canonical: for every stream, what was written without an error is the archive of a tree with the entries given exactly if paths, sizes and types are proper and no path came twice in a row. The program as a relation (Spec/MapNar.lean), deterministic by C168_once. C165 is the case in which headers are not changed.
C169 | proved | C169_extract C168_once | For the trees that the reader takes, if the writer refuses nothing of the part; for the root itself it is C165.
C170 | proved | C170_filter C170_needs_hereditary | For the names and nodes that neither the reader nor the writer refuses. C170_needs_hereditary: with a filter that rejects a directory but lets through what is in it, the dump succeeds and the copy fails.
C171 | proved | C171_merge C171_once C171_needs_order | For trees that the reader takes and a directory of which the writer refuses nothing. C171_needs_order: in the other order the copy fails.
C172 | proved | C172_unpack | For trees that the reader takes; the dump, if the writer refuses nothing of the tree (C35).
