{"id": "C01", "title": "nixbase32 decode inverts encode", "statement": "DecodeString(EncodeToString(b)) returns exactly b and no error.", "quantifier": "every byte string b, of every length", "why_tests_cant": "Byte strings are unbounded; bit-carry handling differs at every length mod 5.", "anchors": ["pkg/nixbase32/nixbase32.go: EncodeToString, DecodeString, Decode"]}
{"id": "C02", "title": "nixbase32 decoding is canonical", "statement": "DecodeString(s) succeeds with result b if and only if s = EncodeToString(b): no two accepted strings decode to the same bytes and nothing outside the image of the encoder is accepted.", "quantifier": "every string s and every byte string b", "why_tests_cant": "Uniqueness quantifies over pairs of arbitrary strings.", "anchors": ["pkg/nixbase32/nixbase32.go: DecodeString, Decode, EncodeToString"]}
{"id": "C03", "title": "nixbase32 encoding is the positional base-32 numeral of the bytes", "statement": "EncodeToString(b) has length EncodedLen(len b), uses only alphabet characters, and read most-significant-digit-first over the alphabet it is the number whose little-endian base-256 digits are b; Encode into a buffer writes the same characters.", "quantifier": "every byte string b", "why_tests_cant": "Unbounded lengths; a wrong shift shows only on particular bit patterns.", "anchors": ["pkg/nixbase32/nixbase32.go: EncodeToString, Encode, EncodedLen, Alphabet"]}
{"id": "C04", "title": "ValidateString agrees with DecodeString", "statement": "ValidateString(s) = nil if and only if DecodeString(s) succeeds (expected by every caller that validates first and decodes later).", "quantifier": "every string s", "why_tests_cant": "All strings of all lengths; disagreement occurs only at lengths that are 1, 3 or 6 mod 8.", "anchors": ["pkg/nixbase32/nixbase32.go: ValidateString, DecodeString"]}
{"id": "C05", "title": "Decode into a caller's buffer", "statement": "Decode(dst, src) with len(dst) >= DecodedLen(len src) never panics and touches only the first DecodedLen bytes of dst; when dst starts zeroed and src is a valid encoding, those bytes are the decoded value; on bytes already present it ORs. With a too short dst it never reports success with fewer bytes than DecodedLen.", "quantifier": "every dst content and length, every src", "why_tests_cant": "dst content and length are arbitrary.", "anchors": ["pkg/nixbase32/nixbase32.go: Decode, DecodedLen"]}
{"id": "C06", "title": "Is is membership in the alphabet", "statement": "Is(c) is true exactly for the bytes that occur in Alphabet.", "quantifier": "all 256 byte values", "why_tests_cant": "Complete domain rather than a sample.", "anchors": ["pkg/nixbase32/nixbase32.go: Is, Alphabet"]}
{"id": "C07", "title": "Hash format/parse round trip", "statement": "For a hash of one of the four algorithms whose digest has the algorithm's size, ParseAny(h.Format(e, true), nil-or-matching) and, for non-SRI e, ParseAny(h.Format(e,false), &algo) return the same algorithm, digest, encoding and prefix flag.", "quantifier": "every algorithm, every digest of its size, every encoding, with and without prefix", "why_tests_cant": "2^512 digests; detection of the encoding is by length.", "anchors": ["pkg/nixhash/hash.go: Format", "pkg/nixhash/parse.go: ParseAny"]}
{"id": "C08", "title": "A parsed hash has a digest of its algorithm's size", "statement": "If ParseAny returns no error the digest length equals the digest size of the returned algorithm.", "quantifier": "every input string and every optional algorithm", "why_tests_cant": "Adversarial strings; fails only for base64 text containing CR/LF.", "anchors": ["pkg/nixhash/parse.go: ParseAny", "pkg/nixhash/encoding.go: b64"]}
{"id": "C09", "title": "Expected algorithm is enforced", "statement": "If ParseAny(s,&a) succeeds the result's algorithm is a; if the text names another algorithm it is rejected; if ParseAny(s,nil) succeeds then s starts with a known algorithm name followed by ':' or '-'; '-' only with base64 (SRI).", "quantifier": "every s, every a", "why_tests_cant": "All strings.", "anchors": ["pkg/nixhash/parse.go: ParseAny", "pkg/nixhash/algo.go: ParseAlgorithm"]}
{"id": "C10", "title": "Re-parsing the printed form of a parsed hash is stable", "statement": "If ParseAny(s,opt) succeeds with h (digest of the right size) then parsing h.String() with the same algorithm yields h again; for NixBase32 text h.String() = s.", "quantifier": "every accepted string", "why_tests_cant": "All accepted strings incl. non-canonical hex case and base64 trailing bits.", "anchors": ["pkg/nixhash/hash_with_encoding.go: String", "pkg/nixhash/parse.go: ParseAny"]}
{"id": "C11", "title": "ParseNixBase32 accepts exactly the canonical form", "statement": "ParseNixBase32(s) succeeds with (algo,digest) iff s = name(algo) ++ ':' ++ nixbase32(digest) with digest of the algorithm's size. MustParseNixBase32 returns the same hashes and panics on every other string.", "quantifier": "every string s", "why_tests_cant": "All strings.", "anchors": ["pkg/nixhash/parse.go: ParseNixBase32", "pkg/nixhash/parse.go: MustParseNixBase32"]}
{"id": "C12", "title": "CompressHash is the XOR fold", "statement": "CompressHash(in,n) for n>0 has length n, byte i is the XOR of all input bytes at positions congruent to i mod n, and CompressHash(a xor b) = CompressHash(a) xor CompressHash(b); it panics exactly when n=0 with non-empty input (or n<0).", "quantifier": "every input and every size", "why_tests_cant": "Unbounded input and size.", "anchors": ["pkg/nixhash/util.go: CompressHash"]}
{"id": "C13", "title": "uint64 and bool wire round trip", "statement": "ReadUint64 after WriteUint64(n) returns n, consuming exactly 8 bytes and leaving the rest untouched; ReadBool/WriteBool likewise; ReadBool rejects every value other than 0 and 1.", "quantifier": "every n < 2^64, every following data", "why_tests_cant": "2^64 values and arbitrary suffix.", "anchors": ["pkg/wire/write.go: WriteUint64, WriteBool", "pkg/wire/read.go: ReadUint64, ReadBool"]}
{"id": "C14", "title": "bytes packet round trip", "statement": "ReadBytesFull(max) / ReadString on the output of WriteBytes(b) / WriteString followed by any data returns b and leaves exactly that data, whenever len b <= max; the packet length is 8 + len b rounded up to a multiple of 8.", "quantifier": "every b with len < 2^63, every max, every following data", "why_tests_cant": "Unbounded lengths, every residue mod 8.", "anchors": ["pkg/wire/write.go: WriteBytes, WriteString, writePadding", "pkg/wire/read.go: ReadBytesFull, ReadString, readPadding"]}
{"id": "C15", "title": "ReadBytesFull enforces its limit", "statement": "ReadBytesFull(r,max) never returns more than max bytes; when the announced length exceeds max it fails having consumed only the 8 length bytes.", "quantifier": "every input stream and every max", "why_tests_cant": "Adversarial streams.", "anchors": ["pkg/wire/read.go: ReadBytesFull"]}
{"id": "C16", "title": "Non-zero or missing padding is rejected", "statement": "A bytes packet whose padding is not all zero, or is cut off, is reported as an error by the read functions (BytesReader.Close and ReadBytesFull).", "quantifier": "every stream", "why_tests_cant": "Adversarial streams; ReadBytesFull discards the error of the deferred Close.", "anchors": ["pkg/wire/read.go: readPadding, ReadBytesFull", "pkg/wire/bytes_reader.go: Close"]}
{"id": "C17", "title": "BytesReader yields exactly the packet content and Close lands after the packet", "statement": "For every sequence of Read sizes, the data returned is a prefix of the announced content (all of it once enough was asked for), never a byte beyond it; Close then leaves the underlying reader exactly after the padded packet irrespective of how much was read.", "quantifier": "every packet, every following data, every sequence of read sizes", "why_tests_cant": "Unbounded interaction histories.", "anchors": ["pkg/wire/bytes_reader.go: Read, Close"]}
{"id": "C18", "title": "BytesWriter writes exactly the declared packet", "statement": "For every sequence of Write and Close calls on a BytesWriter of declared length n: the output is always a prefix of a correct packet, a Write that would exceed n fails and writes nothing, Close succeeds iff exactly n bytes were written, after a successful Close the output is exactly the packet and a further Close changes nothing.", "quantifier": "every call history, and every n such that n plus the length of any piece is below 2^64, where the counter is exact (so every n below 2^63)", "why_tests_cant": "Unbounded histories.", "anchors": ["pkg/wire/bytes_writer.go"]}
{"id": "C19", "title": "Reads do not depend on fragmentation", "statement": "The result of every wire read function and the data left over do not depend on how the underlying io.Reader splits its data into short reads (including empty reads), nor on whether the final io.EOF or other error comes with the last data or after it.", "quantifier": "every fragmentation of every stream", "why_tests_cant": "Exponentially many fragmentations.", "anchors": ["pkg/wire/read.go", "pkg/wire/bytes_reader.go"]}
{"id": "C20", "title": "Sink failures are reported", "statement": "If the underlying writer fails at any byte position, the write function (WriteUint64/WriteBytes/WriteString, and nar.Writer up to Close) reports an error; what reached the sink is a prefix of the correct output.", "quantifier": "every failure point, every payload", "why_tests_cant": "All crash points.", "anchors": ["pkg/wire/write.go", "pkg/nar/writer.go"]}
{"id": "C21", "title": "Writer produces the NAR format", "statement": "Driving Writer with the headers of a file tree in canonical order and writing each file's content, then Close, succeeds on every call and the bytes written are the NAR serialisation of that tree.", "quantifier": "every file tree (any depth and width) with sorted valid entry names, every way of splitting file contents over Write calls", "why_tests_cant": "Trees are unbounded.", "anchors": ["pkg/nar/writer.go: NewWriter, emitNode, WriteHeader, Write, Close", "pkg/nar/types.go"]}
{"id": "C22", "title": "A successful Writer session is a valid NAR", "statement": "If NewWriter, all WriteHeader/Write calls and Close succeed, the output is the NAR serialisation of some tree whose header list is the sequence of headers written, with strictly sorted entries.", "quantifier": "every call history", "why_tests_cant": "Unbounded histories, incl. adversarial header sequences.", "anchors": ["pkg/nar/writer.go", "pkg/nar/header.go: Validate", "pkg/nar/util.go"]}
{"id": "C23", "title": "Reader returns the tree that was serialised", "statement": "Reading the NAR serialisation of a tree with Next/Read yields exactly its headers in canonical pre-order with exact file contents, then io.EOF.", "quantifier": "every tree within the documented length limits, every read pattern", "why_tests_cant": "Unbounded trees and read patterns.", "anchors": ["pkg/nar/reader.go: NewReader, parseNode, Next, Read"]}
{"id": "C24", "title": "Reader inverts Writer", "statement": "Whatever header/content sequence a Writer session accepted for a tree, Reader returns the same sequence from its output.", "quantifier": "every tree within limits", "why_tests_cant": "Composition over unbounded trees.", "anchors": ["pkg/nar/reader.go", "pkg/nar/writer.go"]}
{"id": "C25", "title": "Paths returned by Reader are absolute and clean", "statement": "Every Header.Path returned by Next starts with '/', is equal to its own path.Clean, and therefore has no '.', '..' or empty component and no NUL byte, whatever bytes are read.", "quantifier": "every byte stream, every call history", "why_tests_cant": "Adversarial input (path traversal).", "anchors": ["pkg/nar/reader.go: parseNode", "pkg/nar/util.go: IsValidNodeName"]}
{"id": "C26", "title": "Reader enforces canonical order", "statement": "In every run of Next, consecutive returned paths satisfy PathIsLexicographicallyOrdered, and any directory's entries come out in non-decreasing byte order of their names; out-of-order input makes Next fail.", "quantifier": "every byte stream", "why_tests_cant": "Adversarial input.", "anchors": ["pkg/nar/reader.go: Next", "pkg/nar/util.go: PathIsLexicographicallyOrdered"]}
{"id": "C27", "title": "Next errors are sticky", "statement": "Once Next returned an error every later Next returns the same error and reads nothing more from the underlying reader.", "quantifier": "every stream, every history", "why_tests_cant": "Unbounded histories.", "anchors": ["pkg/nar/reader.go: Next"]}
{"id": "C28", "title": "Reading content does not influence iteration", "statement": "The sequence of results of Next is independent of how many bytes of each file the caller reads between calls.", "quantifier": "every stream, every interleaving of Read and Next", "why_tests_cant": "Unbounded interleavings.", "anchors": ["pkg/nar/reader.go: Next, Read", "pkg/wire/bytes_reader.go: Close"]}
{"id": "C29", "title": "io.EOF from Next means a complete archive", "statement": "Next returns io.EOF only after a complete, well-formed NAR has been consumed; a truncated archive gives a different error.", "quantifier": "every byte stream, every truncation point", "why_tests_cant": "Every cut point of every archive.", "anchors": ["pkg/nar/reader.go: parseNode, Next, expectString"]}
{"id": "C30", "title": "Reader accepts only NAR grammar", "statement": "If Next runs to io.EOF without error then the consumed bytes are the serialisation of a tree (no unknown tokens inside directories, no early termination by an entry called ')').", "quantifier": "every byte stream", "why_tests_cant": "Adversarial input; an entry named ')' and unknown tokens need to be tried.", "anchors": ["pkg/nar/reader.go: parseNode"]}
{"id": "C31", "title": "Reader headers are internally consistent", "statement": "Every header returned by Next passes Header.Validate except for empty link targets, has 0 <= Size <= MaxInt64, link target at most 4095 bytes, and each path component at most 255 bytes.", "quantifier": "every byte stream", "why_tests_cant": "Adversarial input.", "anchors": ["pkg/nar/reader.go: parseNode", "pkg/nar/header.go: Validate"]}
{"id": "C32", "title": "Reader.Close stops the parser", "statement": "After Close the background goroutine terminates and no longer reads from the underlying reader.", "quantifier": "every stream, every prefix of Next calls before Close", "why_tests_cant": "Runtime goroutine state for all histories.", "anchors": ["pkg/nar/reader.go: Close, parseNode, NewReader"]}
{"id": "C33", "title": "Path order check", "statement": "PathIsLexicographicallyOrdered(a,b) is true iff a precedes or equals b in component-wise lexicographic order.", "quantifier": "every pair of paths", "why_tests_cant": "Pairs of arbitrary strings; differs for characters below '/'.", "anchors": ["pkg/nar/util.go: PathIsLexicographicallyOrdered"]}
{"id": "C34", "title": "Header.Validate is exactly the documented rule", "statement": "Validate succeeds iff the path starts with '/' and has no NUL, link target is empty for files/directories and non-empty for symlinks, and size/executable are zero for directories and symlinks.", "quantifier": "every header", "why_tests_cant": "All header values.", "anchors": ["pkg/nar/header.go: Validate"]}
{"id": "C35", "title": "DumpPath writes the NAR of the file system tree", "statement": "For every file system tree, DumpPath writes exactly the NAR serialisation of that tree; with a filter, that of the tree with rejected nodes removed.", "quantifier": "every tree, every filter", "why_tests_cant": "Unbounded trees and arbitrary filter functions.", "anchors": ["pkg/nar/dump.go: DumpPath, DumpPathFilter, dumpPath"]}
{"id": "C36", "title": "Writer after an error", "statement": "After a failed WriteHeader, later WriteHeader calls return an error and Close reports failure; WriteHeader never blocks forever.", "quantifier": "every history with a failing call", "why_tests_cant": "Unbounded histories; goroutine state.", "anchors": ["pkg/nar/writer.go: WriteHeader, Close, NewWriter"]}
{"id": "C37", "title": "Reader calls do not depend on the schedule", "statement": "Whatever the Go scheduler does with the caller and the reader's goroutine: every sequence of calls of Next, Read and Close returns what it returns when the goroutine only runs while the caller waits, the two never access the reader's state at the same time, and the calls end in the same way (all return, one panics, or one blocks).", "quantifier": "every input, every sequence of calls, every schedule", "why_tests_cant": "The number of interleavings is unbounded and a test sees the few the scheduler happens to choose.", "anchors": ["pkg/nar/reader.go: NewReader, Next, Read, Close"]}
{"id": "C38", "title": "FileInfo mode agrees with the header", "statement": "FileInfo().Mode() is read-only for everybody, executable iff the header is an executable file or a directory; IsDir() agrees with Mode().IsDir(). ModTime is the epoch, Sys the header.", "quantifier": "every header", "why_tests_cant": "All headers.", "anchors": ["pkg/nar/header_mode.go: Mode", "pkg/nar/header.go: headerFileInfo"]}
{"id": "C39", "title": ".ls validation", "statement": "ParseLS accepts a listing only if every entry name at any depth is free of '/' and NUL and every node is type-consistent; it never panics.", "quantifier": "every JSON tree", "why_tests_cant": "Trees of any depth.", "anchors": ["pkg/nar/ls/list.go: validateNode, ParseLS"]}
{"id": "C40", "title": "Validate accepts exactly store paths", "statement": "storepath.Validate(s) = nil iff s is '/nix/store/' + 32 nixbase32 characters + '-' + name over the allowed characters.", "quantifier": "every string", "why_tests_cant": "All strings.", "anchors": ["pkg/storepath/storepath.go: Validate"]}
{"id": "C41", "title": "Store path round trip", "statement": "For a 20-byte digest and a non-empty name of allowed characters: FromString(String()) and FromAbsolutePath(Absolute()) give back the same store path and Validate succeeds.", "quantifier": "every digest, every name", "why_tests_cant": "Unbounded names, 2^160 digests.", "anchors": ["pkg/storepath/storepath.go: String, Absolute, FromString, FromAbsolutePath, Validate"]}
{"id": "C42", "title": "A parsed store path prints as its input", "statement": "If FromString(s) succeeds then String() = s, the name is made of allowed characters only and Absolute() stays directly below the store directory.", "quantifier": "every string", "why_tests_cant": "Adversarial strings (path.Join cleaning).", "anchors": ["pkg/storepath/storepath.go: FromString"]}
{"id": "C43", "title": "FromAbsolutePath requires the store prefix", "statement": "If FromAbsolutePath(s) succeeds then s starts with '/nix/store/' .", "quantifier": "every string", "why_tests_cant": "All strings.", "anchors": ["pkg/storepath/storepath.go: FromAbsolutePath"]}
{"id": "C44", "title": "Store path parsing never panics", "statement": "Validate, FromString and FromAbsolutePath return (possibly with an error) on every string without an out-of-range slice; a digest returned is always 20 bytes.", "quantifier": "every string", "why_tests_cant": "All strings.", "anchors": ["pkg/storepath/storepath.go"]}
{"id": "C45", "title": "Reference scanning does not depend on chunking", "statement": "The references found depend only on the concatenation of the data written, not on how it was split over Write calls.", "quantifier": "every split of every stream", "why_tests_cant": "All splits.", "anchors": ["pkg/storepath/references/refs.go: Write"]}
{"id": "C46", "title": "Reference scanner soundness", "statement": "Every path returned by References() is one of the candidates and its 32-character hash part occurs literally in the data written.", "quantifier": "every candidate list, every data", "why_tests_cant": "Unbounded data.", "anchors": ["pkg/storepath/references/refs.go: Write, References"]}
{"id": "C47", "title": "Reference scanner completeness", "statement": "Every candidate whose hash part occurs in the data written is returned.", "quantifier": "every candidate list, every data", "why_tests_cant": "Unbounded data; fails only for occurrences not aligned inside a run of base32 characters.", "anchors": ["pkg/storepath/references/refs.go: Write, References"]}
{"id": "C48", "title": "References are sorted and duplicate free", "statement": "References() is sorted, has no duplicates and does not depend on map iteration order.", "quantifier": "every candidate list, data and iteration order", "why_tests_cant": "All map orders.", "anchors": ["pkg/storepath/references/refs.go: References"]}
{"id": "C49", "title": "narinfo print/parse round trip", "statement": "Parse(n.String()) returns n for every well-formed NarInfo (values without newlines and ': ', etc.).", "quantifier": "every NarInfo satisfying the stated well-formedness", "why_tests_cant": "Unbounded fields and lists.", "anchors": ["pkg/narinfo/types.go: String", "pkg/narinfo/parser.go: Parse, splitOnce"]}
{"id": "C50", "title": "narinfo parsing rejects malformed lines", "statement": "Parse fails if any non-empty line has no ': ' or has it twice, or has an unknown key, or carries an unparsable hash, size or signature; otherwise it succeeds.", "quantifier": "every text", "why_tests_cant": "All texts.", "anchors": ["pkg/narinfo/parser.go: Parse, splitOnce"]}
{"id": "C51", "title": "Fingerprint identifies what is signed", "statement": "Two NarInfos passing Check with the same Fingerprint agree on StorePath, NarHash, NarSize and References.", "quantifier": "every pair of NarInfos", "why_tests_cant": "Pairs of unbounded values; security relevant.", "anchors": ["pkg/narinfo/fingerprint.go: Fingerprint", "pkg/narinfo/check.go: Check"]}
{"id": "C52", "title": "Check is exactly the documented rule", "statement": "Check succeeds iff the paths are valid and, without compression, FileSize (if present) = NarSize and FileHash (if present) = NarHash.", "quantifier": "every NarInfo", "why_tests_cant": "All values.", "anchors": ["pkg/narinfo/check.go: Check"]}
{"id": "C53", "title": "Key and signature text round trip", "statement": "ParseSignature/ParsePublicKey/LoadSecretKey of the printed form give back name and data; acceptance implies non-empty name without ':' and data of the exact size.", "quantifier": "every name and data, every string", "why_tests_cant": "All strings.", "anchors": ["pkg/narinfo/signature/util.go: encode, decode", "pkg/narinfo/signature/signature.go", "pkg/narinfo/signature/public_key.go", "pkg/narinfo/signature/secret_key.go"]}
{"id": "C54", "title": "VerifyFirst is sound and decides on the first name match", "statement": "VerifyFirst returns true only if some given key verifies some given signature of the same name; its result is that of the first (key, signature) pair, keys outermost, with equal names; false if none.", "quantifier": "every list of keys and signatures", "why_tests_cant": "Lists of any length.", "anchors": ["pkg/narinfo/signature/signature.go: VerifyFirst", "pkg/narinfo/signature/public_key.go: Verify"]}
{"id": "C55", "title": "Sign then Verify", "statement": "A signature made with a secret key is accepted by the derived public key under the same name, also after both went through their text form, and never under another key name.", "quantifier": "every key and fingerprint (given a correct ed25519)", "why_tests_cant": "All keys and messages.", "anchors": ["pkg/narinfo/signature/secret_key.go: Sign, ToPublicKey", "pkg/narinfo/signature/public_key.go: Verify"]}
{"id": "C56", "title": "ATerm write/read round trip", "statement": "ReadDerivation(WriteDerivation(d)) returns d for every derivation that passes Validate and whose strings in raw positions need no escaping.", "quantifier": "every such derivation", "why_tests_cant": "Unbounded maps, lists and strings.", "anchors": ["pkg/derivation/encode.go: WriteDerivation, writeDerivation", "pkg/derivation/parser.go: parseDerivation, ReadDerivation, arrayEach"]}
{"id": "C57", "title": "WriteDerivation is independent of map order", "statement": "The ATerm bytes do not depend on Go's map iteration order, and keys appear sorted.", "quantifier": "every derivation, every iteration order", "why_tests_cant": "All permutations.", "anchors": ["pkg/derivation/encode.go: writeDerivation"]}
{"id": "C58", "title": "Output path calculation is independent of map order", "statement": "CalculateOutputPaths and CalculateDrvReplacement do not depend on map iteration order of the derivation or of the replacement map.", "quantifier": "every derivation and replacement map, every iteration order", "why_tests_cant": "All permutations; fails when two inputs share a replacement.", "anchors": ["pkg/derivation/hashes.go: CalculateOutputPaths", "pkg/derivation/encode.go: writeDerivation"]}
{"id": "C59", "title": "String escaping round trip", "statement": "Env values survive escaping and unescaping; the escaped form contains no unescaped quote, newline, tab or CR.", "quantifier": "every string", "why_tests_cant": "All strings.", "anchors": ["pkg/derivation/encode.go: escapeString", "pkg/derivation/parser.go: unquote, stringUnescaper"]}
{"id": "C60", "title": "Parser rejects duplicates and wrong order", "statement": "If parsing succeeds, outputs, input derivations and env keys appeared in strictly increasing order (so no duplicates) in the text and all of them are in the result.", "quantifier": "every text", "why_tests_cant": "All texts.", "anchors": ["pkg/derivation/parser.go: parseDerivation"]}
{"id": "C61", "title": "Reading then writing preserves the file", "statement": "If ReadDerivation(b) succeeds with d then WriteDerivation(d) = b.", "quantifier": "every accepted text", "why_tests_cant": "All texts; platform and builder are escaped on write but not unescaped on read.", "anchors": ["pkg/derivation/parser.go", "pkg/derivation/encode.go"]}
{"id": "C62", "title": "Validate gives one verdict", "statement": "Validate's success does not depend on map iteration order.", "quantifier": "every derivation, every iteration order", "why_tests_cant": "All permutations; fails with both __json and name in Env.", "anchors": ["pkg/derivation/derivation.go: Validate"]}
{"id": "C63", "title": "Output paths do not depend on themselves", "statement": "CalculateOutputPaths is unchanged when the output paths recorded in Outputs and the Env entries named like outputs are changed (as long as Name() stays the same, i.e. no output is called 'name').", "quantifier": "every derivation, every change of those fields", "why_tests_cant": "All values.", "anchors": ["pkg/derivation/hashes.go: CalculateOutputPaths, getMaskedATermHash", "pkg/derivation/encode.go: writeDerivation"]}
{"id": "C64", "title": "Fixed output paths depend only on name and hash", "statement": "For a fixed-output derivation, the output path depends only on the name, hash algorithm and hash; its replacement string in addition on the recorded path.", "quantifier": "every pair of such derivations", "why_tests_cant": "All pairs.", "anchors": ["pkg/derivation/hashes.go: CalculateOutputPaths, CalculateDrvReplacement"]}
{"id": "C65", "title": "DrvPath is a valid store path", "statement": "DrvPath of a derivation whose name uses allowed characters is the store path that Nix specifies (type text with the sorted references, inner digest the sha256 of the ATerm), is accepted by storepath.Validate, ends in name.drv, and is independent of map order.", "quantifier": "every derivation, every hash function", "why_tests_cant": "All values.", "anchors": ["pkg/derivation/drv_path.go: DrvPath"]}
{"id": "C66", "title": "A validated derivation never makes path calculation panic", "statement": "If Validate succeeds, DrvPath and CalculateOutputPaths do not panic.", "quantifier": "every derivation", "why_tests_cant": "All values; fails for an empty name.", "anchors": ["pkg/derivation/derivation.go: Validate, Name", "pkg/derivation/drv_path.go", "pkg/derivation/hashes.go"]}
{"id": "C67", "title": "MapStore behaves like a map with verified insertion", "statement": "After any history of Puts: Get(p) returns the derivation last successfully Put with path p, Has agrees with Get, a failed Put changes nothing, every stored derivation's inputs are stored and its output paths were recomputed.", "quantifier": "every history of Put/Get/Has", "why_tests_cant": "Unbounded histories.", "anchors": ["pkg/derivation/store/map.go", "pkg/derivation/store/util.go"]}
{"id": "C68", "title": "BadgerStore agrees with MapStore", "statement": "On the same history BadgerStore and MapStore accept the same derivations and return equal ones.", "quantifier": "every history", "why_tests_cant": "Unbounded histories; fails for derivations with two or more input derivations.", "anchors": ["pkg/derivation/store/badger.go", "pkg/derivation/store/map.go"]}
{"id": "C69", "title": "FSStore stays inside its directory", "statement": "The file opened for a derivation path is a direct child of StorageDir.", "quantifier": "every path string", "why_tests_cant": "Adversarial strings.", "anchors": ["pkg/derivation/store/filesystem.go: getFilepath, Get, Has"]}
{"id": "C70", "title": "HTTPStore status handling", "statement": "Get succeeds only for 2xx with a valid derivation body; Has is true exactly for 2xx, false exactly for 404 and an error otherwise.", "quantifier": "every status code and body", "why_tests_cant": "All codes.", "anchors": ["pkg/derivation/store/http.go: Get, Has"]}
{"id": "C71", "title": "Store URI dispatch", "statement": "NewFromURI selects the documented store for every scheme and rejects unknown ones.", "quantifier": "every parsed URI", "why_tests_cant": "All URIs.", "anchors": ["pkg/derivation/store/uri.go: NewFromURI"]}
{"id": "C72", "title": "nar ls lists every matching entry", "statement": "gonix nar ls -R PATH prints exactly the archive's entries whose path has the prefix PATH.", "quantifier": "every archive, every PATH", "why_tests_cant": "Early exit logic over arbitrary sorted header lists.", "anchors": ["cmd/gonix/nar/ls.go: Run, headerLineString"]}
{"id": "C73", "title": "nar cat prints exactly the requested file", "statement": "gonix nar cat PATH prints exactly the content of the regular file at PATH, or fails if there is none.", "quantifier": "every archive, every PATH", "why_tests_cant": "Unbounded archives.", "anchors": ["cmd/gonix/nar/cat.go: Run"]}
{"id": "C74", "title": "Reference scanner construction", "statement": "NewReferenceScanner accepts exactly candidate lists in which every path starts with the store directory and is long enough, never slices out of range, and later candidates with the same hash replace earlier ones.", "quantifier": "every candidate list", "why_tests_cant": "All lists.", "anchors": ["pkg/storepath/references/refs.go: NewReferenceScanner"]}
{"id": "C75", "title": "Node name validity", "statement": "IsValidNodeName is true exactly when the name has neither '/' nor NUL.", "quantifier": "every string", "why_tests_cant": "All strings.", "anchors": ["pkg/nar/util.go: IsValidNodeName"]}
{"id": "C76", "title": "Fetcher cache is a map", "statement": "After any history of UpsertCache, QueryCache(domain,key) returns exactly the last value and timestamp upserted for that pair.", "quantifier": "every history", "why_tests_cant": "Unbounded histories.", "anchors": ["pkg/sqlite/fetcher_cache_v2/query.sql.go"]}
{"id": "C77", "title": "Binary cache NAR queries", "statement": "After any history of InsertNar/InsertMissingNAR/PurgeNars, QueryNar returns the last record for (cache, hashPart) iff it is newer than the threshold for its presence, and nothing else.", "quantifier": "every history", "why_tests_cant": "Unbounded histories.", "anchors": ["pkg/sqlite/binary_cache_v6/query.sql.go"]}
{"id": "C78", "title": "Store database referential integrity", "statement": "After any history of RegisterValidPath/AddReference/InvalidatePath (foreign keys on), paths are unique, references point to registered paths and a referenced path cannot be invalidated.", "quantifier": "every history", "why_tests_cant": "Unbounded histories.", "anchors": ["pkg/sqlite/nix_v10/schema.sql", "pkg/sqlite/nix_v10/query.sql.go"]}
{"id": "C79", "title": "Next is total on arbitrary bytes", "statement": "On a Reader that was not closed, Next returns a header or an error for every input: it neither panics nor blocks forever, whatever bytes are read and whatever calls came before.", "quantifier": "every byte stream, every terminal error of the underlying reader, every sequence of Next and Read calls", "why_tests_cant": "All inputs, including corrupted ones of any nesting depth, and all call histories.", "anchors": ["pkg/nar/reader.go: parseNode, Next", "pkg/wire/read.go: ReadBytesFull"]}
{"id": "C80", "title": "Hash construction checks the digest size", "statement": "NewHash and NewHashWithEncoding return a hash exactly when the digest has the algorithm's size, and it carries that algorithm and digest; MustNewHash panics in the other cases. A value that is none of the four algorithms panics.", "quantifier": "every algorithm value and every digest", "why_tests_cant": "All algorithm values and all digests of all sizes.", "anchors": ["pkg/nixhash/hash.go: NewHash, MustNewHash", "pkg/nixhash/hash_with_encoding.go: NewHashWithEncoding"]}
{"id": "C81", "title": "Algorithm names are a bijection", "statement": "ParseAlgorithm accepts exactly md5, sha1, sha256 and sha512; String inverts it and panics on all other values.", "quantifier": "every string and every algorithm value", "why_tests_cant": "All strings: no other spelling may be accepted.", "anchors": ["pkg/nixhash/algo.go: ParseAlgorithm, Algorithm.String, Algorithm.Func"]}
{"id": "C82", "title": "Printed hashes identify the hash", "statement": "Format succeeds for the four algorithms and four encodings and panics for unknown encodings; two hashes of proper size that print to the same text in encodings that include the algorithm are the same hash, and the same encoding was used for both.", "quantifier": "every pair of hashes, every encoding", "why_tests_cant": "All pairs of digests and encodings.", "anchors": ["pkg/nixhash/hash.go: Format"]}
{"id": "C83", "title": "WriteDerivation reports writer failures", "statement": "Derivation.WriteDerivation returns nil exactly when the writer accepted every Write; when the writer fails, the error is the writer's and what was written before is a prefix of the ATerm text.", "quantifier": "every derivation, every writer that fails after any number of bytes", "why_tests_cant": "All derivations and all failure points.", "anchors": ["pkg/derivation/encode.go: WriteDerivation, writeDerivation"]}
{"id": "C84", "title": "The ATerm text identifies the derivation", "statement": "Two derivations whose unescaped strings can stand between quotes (builder, platform and environment values arbitrary) and whose WriteDerivation texts are equal have the same outputs, inputs, platform, builder, arguments and environment.", "quantifier": "every pair of derivations", "why_tests_cant": "All pairs of derivations; an ambiguity in the encoding would be a security issue that examples don't show.", "anchors": ["pkg/derivation/encode.go: WriteDerivation", "pkg/derivation/decode.go: ReadDerivation"]}
{"id": "C85", "title": "ReadDerivation never panics", "statement": "ReadDerivation returns a derivation or an error on every input; it does not index out of range.", "quantifier": "every byte sequence read", "why_tests_cant": "All byte sequences, of any length.", "anchors": ["pkg/derivation/decode.go: ReadDerivation, parseDerivation, arrayEach, unescape, unquote"]}
{"id": "C86", "title": "Derivation paths identify derivations", "statement": "Two valid derivations with the same DrvPath have the same contents, or two explicit different texts hashed for them have the same (folded) sha256: derivation paths collide only if the hash function does.", "quantifier": "every pair of derivations, every hash function with 32 byte digests", "why_tests_cant": "All pairs of derivations; the text hashed for the path must be an injective function of the parts it commits to.", "anchors": ["pkg/derivation/drv_path.go: DrvPath"]}
{"id": "C87", "title": "Outputs get different paths", "statement": "CalculateOutputPaths gives different outputs of a derivation different paths.", "quantifier": "every valid derivation whose name and output names consist of characters allowed in store paths, every replacement map, every hash function", "why_tests_cant": "All derivations and output names, independent of the hash function.", "anchors": ["pkg/derivation/hashes.go: CalculateOutputPaths"]}
{"id": "C88", "title": "Output paths follow the Nix specification", "statement": "CalculateOutputPaths returns one path per output: for fixed outputs the Nix store path of type source (r:sha256) or output:out (others) over the declared hash; for others the store path of type output:<name> over the sha256 of the ATerm with output paths and env entries named like outputs emptied and input derivations replaced (inputs that share a replacement being used with the same outputs). It fails exactly when an output is not fixed, and the non-empty replacement map misses an input derivation.", "quantifier": "every valid derivation whose name and output names consist of characters allowed in store paths, every replacement map, every hash function", "why_tests_cant": "All derivations; golden tests pin a handful of hashes only.", "anchors": ["pkg/derivation/hashes.go: CalculateOutputPaths, getMaskedATermHash", "pkg/derivation/encode.go: writeDerivation"]}
{"id": "C89", "title": "Derivation replacement", "statement": "CalculateDrvReplacement is hex(sha256(\"fixed:out:algo:hash:path\")) for derivations whose only output is a fixed 'out', and hex(sha256(text with inputs replaced)) for all others; it fails exactly if a replacement is missing from a non-empty map.", "quantifier": "every derivation, every replacement map, every hash function", "why_tests_cant": "All derivations; a wrong replacement changes every dependent output path.", "anchors": ["pkg/derivation/hashes.go: CalculateDrvReplacement"]}
{"id": "C90", "title": "FSStore finds what is in its directory", "statement": "FSStore.Has is true exactly for regular files, false exactly for missing ones and an error otherwise; a valid derivation whose text is in the file named like its derivation path is returned by Get(DrvPath) unchanged. Put of FSStore and HTTPStore fails for every derivation.", "quantifier": "every file system, directory, derivation", "why_tests_cant": "All derivations and file systems.", "anchors": ["pkg/derivation/store/filesystem.go: Get, Has, getFilepath", "pkg/derivation/drv_path.go: DrvPath"]}
{"id": "C91", "title": "Iterating over an archive ends", "statement": "Every header that Next returns costs at least 24 bytes of input, so a loop of Next (and Read) calls over any input ends with an error from Next after at most len/24 headers; 'nar ls' and 'nar cat' end without panic or deadlock on any file.", "quantifier": "every byte stream, every sequence of calls", "why_tests_cant": "Non-termination can hide in any malformed input.", "anchors": ["pkg/nar/reader.go: Next, parseNode", "cmd/gonix/nar/ls.go: Run", "cmd/gonix/nar/cat.go: Run"]}
{"id": "C92", "title": "drv show prints the stored derivation", "statement": "'gonix drv show --format aterm' on an FSStore prints exactly the text of the derivation Get delivers; for a canonical .drv file, byte for byte the file.", "quantifier": "every file system, every path, every derivation text", "why_tests_cant": "All derivation texts.", "anchors": ["cmd/gonix/drv/cmd.go: ShowCmd.Run", "pkg/derivation/store/filesystem.go: Get", "pkg/derivation/encode.go: WriteDerivation"]}
{"id": "C93", "title": "Read ends at the announced size", "statement": "After Next returned a header, Read delivers the following bytes of the archive, never more than hdr.Size, and reports io.EOF only once hdr.Size bytes were delivered.", "quantifier": "every byte stream, history of calls and series of buffer sizes", "why_tests_cant": "All streams, truncation points and read sizes.", "anchors": ["pkg/nar/reader.go: Read", "pkg/wire/bytes_reader.go: Read"]}
{"id": "C94", "title": "Binary cache registry", "statement": "Over any history, InsertCache returns one id per url and different ids for different urls; QueryCache, QueryRealisation and QueryLastPurge return exactly what was stored last (if newer than the thresholds); with foreign keys on, NARs and realisations can be recorded exactly for ids that InsertCache returned, and a failed call changes nothing.", "quantifier": "every history of calls", "why_tests_cant": "Unbounded histories.", "anchors": ["pkg/sqlite/binary_cache_v6/query.sql.go", "pkg/sqlite/binary_cache_v6/schema.sql"]}
{"id": "C95", "title": "Evaluation cache is a map", "statement": "Over any history of InsertAttribute/InsertAttributeWithContext, QueryAttribute(parent,name) returns type, value and context of the last insertion for that pair, QueryAttributes lists exactly the inserted names, each once; an attribute without a name is never replaced and never found by QueryAttribute.", "quantifier": "every history of calls", "why_tests_cant": "Unbounded histories.", "anchors": ["pkg/sqlite/eval_cache_v5/query.sql.go", "pkg/sqlite/eval_cache_v5/schema.sql"]}
{"id": "C96", "title": "Writer calls do not depend on the schedule", "statement": "Whatever the Go scheduler does with the caller and the writer's goroutine: every sequence of calls of WriteHeader, Write and Close returns what it returns when the goroutine only runs while the caller waits, the same bytes are written, the two never access the writer's state at the same time, and the calls end in the same way (all return, one panics, or one blocks). No schedule goes on for ever.", "quantifier": "every underlying writer (also failing ones), every sequence of calls, every schedule", "why_tests_cant": "The number of interleavings is unbounded and a test sees the few the scheduler happens to choose.", "anchors": ["pkg/nar/writer.go: NewWriter, WriteHeader, Write, Close, emitNode"]}
{"id": "C97", "title": "BadgerStore is linearizable", "statement": "Any number of goroutines may call Put, Get and Has of one BadgerStore at the same time, any transaction may fail with an error of the database, and the process may crash and restart at any point. As long as no two different derivations that are put have the same path, everything the callers observe, and the database left behind, is what they would have seen had every call been executed alone at one moment between its beginning and its end; calls interrupted by a crash and calls that returned an error of the database took effect completely or not at all.", "quantifier": "every number of goroutines, every sequence of calls, every interleaving of their transactions, every failure of a transaction, every crash point, every hash function without collisions on the history", "why_tests_cant": "The interleavings and crash points are unbounded.", "anchors": ["pkg/derivation/store/badger.go: Put, Get, Has", "pkg/derivation/store/util.go: validateDerivationInStore"]}
{"id": "C98", "title": "BadgerStore is consistent at every crash point", "statement": "At every moment of every execution of any number of goroutines on one BadgerStore: what is stored under a path is the text of a derivation some goroutine called Put with, that has this path, is valid, has the calculated output paths, all of whose input derivations are stored, and whose replacement is stored too; a derivation whose Put has returned is stored; nothing stored is ever lost or changed.", "quantifier": "every execution as in C97, every moment of it", "why_tests_cant": "The interleavings and crash points are unbounded.", "anchors": ["pkg/derivation/store/badger.go: Put", "pkg/derivation/store/util.go: validateDerivationInStore, checkOutputPaths"]}
{"id": "C99", "title": "What ReadDerivation accepts, exactly", "statement": "ReadDerivation succeeds with d exactly if the input belongs to an explicit grammar (Spec/DrvGrammar.lean: the ATerm layout of derivations plus four named laxities: an array of any two bytes is empty, the two kinds of brackets are interchangeable, trailing fields of an output or an environment variable may be missing, an unterminated string at the end of an array is ignored) and d is what the text says: every string verbatim at its place, environment values unescaped, map keys strictly increasing, the name from __json, and d passes Validate. Nothing else is accepted and nothing is invented.", "quantifier": "every input, every derivation", "why_tests_cant": "All byte strings.", "anchors": ["pkg/derivation/parser.go: ReadDerivation, parseDerivation, arrayEach, unquote, unquoteSlice"]}
{"id": "C100", "title": "What the NAR reader accepts, exactly", "statement": "Opening a reader on a stream, calling Next n times with any Read calls in between, and calling Next once more succeeds n times with the headers hs and then answers io.EOF leaving rest in the underlying reader, exactly if the stream is the magic followed by an archive of an explicit grammar (Spec/NarRelaxed.lean: the NAR format plus named laxities: padding of strings is not looked at, unknown tokens of at most 32 bytes in a directory are skipped, an entry called ) ends its directory, a node of type ) is empty, the paths are in order bytewise or by component; or an archive cut off by the end of the stream at one of the listed places) with these headers; and the Read calls return the contents.", "quantifier": "every stream (data and final error), every sequence of calls of Next and Read", "why_tests_cant": "All byte strings and all patterns of calls.", "anchors": ["pkg/nar/reader.go: NewReader, parseNode, Next, Read, expectString", "pkg/nar/util.go: IsValidNodeName, PathIsLexicographicallyOrdered", "pkg/wire/read.go: ReadString, ReadBytesFull"]}
{"id": "C101", "title": "Exactly the listings of trees can be written", "statement": "For a history of WriteHeader/Write/Close calls whose headers have clean absolute paths, a known type and a non-negative size, none repeating the path of the header before: all calls and a final Close succeed if and only if the history begins with a header, has no earlier Close, and its headers with the data written after each are the entries of a tree in canonical order (every file with exactly its announced number of bytes, every directory before its contents, names sorted and valid and not like ..foo, targets not empty).", "quantifier": "every history of calls on a fresh writer over a sink that does not fail", "why_tests_cant": "Infinitely many histories; both directions (nothing wrong accepted, nothing right refused).", "anchors": ["pkg/nar/writer.go: NewWriter, emitNode, WriteHeader, Write, Close", "pkg/nar/header.go: Validate"]}
{"id": "C102", "title": "What ParseAny accepts, exactly", "statement": "ParseAny(s, known) answers (algorithm, digest, encoding, named) exactly if s is a text of that hash: optional algorithm name and colon (or name and dash for base64, giving SRI), then the digest as hexadecimal of either case, as canonical nixbase32, or as base64 as encoding/base64 reads it (line breaks ignored, unused bits ignored, padding by the text, so digests of another size are possible), with the length of the text that belongs to the algorithm. It panics exactly for an unknown algorithm value given as known with a text that does not look named.", "quantifier": "every byte string, every expected algorithm value", "why_tests_cant": "Equivalence over all strings.", "anchors": ["pkg/nixhash/parse.go: ParseAny", "pkg/nixhash/algo.go: ParseAlgorithm, Func"]}
{"id": "C103", "title": "What FromString and FromAbsolutePath accept, exactly", "statement": "FromString(s) answers (name, digest) exactly if s is the base32 text of the 20-byte digest, one byte, and the name, and the path s leads (with . and .. resolved) from /nix/store to an entry of /nix/store, or to an entry of /nix called store, some byte and then the rest, where the rest is 32 base32 characters and at least one allowed character. FromAbsolutePath(s) is FromString of what follows the first eleven bytes, at least 34 bytes.", "quantifier": "every byte string", "why_tests_cant": "Equivalence over all strings, including all ways to use . and .. .", "anchors": ["pkg/storepath/storepath.go: FromString, FromAbsolutePath, Validate"]}
{"id": "C104", "title": "PathRe and NameRe", "statement": "PathRe.MatchString(s) holds exactly for the store paths whose name does not begin with a dot; Validate and FromAbsolutePath accept all of them (the result prints as s) but not only them. NameRe, having no anchors, matches exactly the texts that contain some name character other than a dot.", "quantifier": "every byte string", "why_tests_cant": "Equivalence over all strings.", "anchors": ["pkg/storepath/storepath.go: NameRe, PathRe, Validate, FromAbsolutePath"]}
{"id": "C105", "title": "What a BadgerStore accepts and holds, exactly", "statement": "On every history of Put calls, a BadgerStore behaves like a MapStore that is given only the derivations with at most one input derivation and the fixed-output derivations: these calls have the same results, every other Put fails and changes nothing, Has agrees. Put succeeds exactly if the derivation is of that kind, valid, its inputs are stored and its output paths are the calculated ones; Get is ReadDerivation of what WriteDerivation wrote for the derivation put last with that path.", "quantifier": "every history of Puts on a new store, every derivation, every iteration order of the maps, every hash function", "why_tests_cant": "All histories and derivations.", "anchors": ["pkg/derivation/store/badger.go: Put, Get, Has", "pkg/derivation/store/util.go", "pkg/derivation/store/map.go: Put"]}
{"id": "C106", "title": "gonix nar ls on a file with any contents, exactly", "statement": "If NewReader fails, nothing is printed and its error is the result. Otherwise Next yields exactly one finite sequence of headers and then an answer that is no header; ls prints, in this order, the line of every header that starts with PATH (without -R: and has no further slash), up to the first header that does not start with PATH and is bytewise greater. If there is such a header the command succeeds; otherwise io.EOF is success and any other answer is relayed. For a file in the language of C100 the command succeeds and prints the lines of the entries of the grammar.", "quantifier": "every file contents and I/O failure point, every PATH, with and without -R", "why_tests_cant": "All byte strings as files, including every truncated and corrupted archive.", "anchors": ["cmd/gonix/nar/ls.go: LsCmd.Run, headerLineString", "pkg/nar/reader.go: Next"]}
{"id": "C107", "title": "gonix nar cat on a file with any contents, exactly", "statement": "If NewReader fails, nothing is printed and its error is the result. Otherwise the first header whose path is exactly PATH decides: a regular file prints the bytes after it up to the announced size, with success exactly if all of them are there or the file just ends, and with the I/O error otherwise; any other type prints nothing and fails. Without such a header nothing is printed and the command fails, with 'requested path not found' after io.EOF and with the error of Next otherwise. For a file in the language of C100 the entries are those of the grammar.", "quantifier": "every file contents and I/O failure point, every PATH", "why_tests_cant": "All byte strings as files.", "anchors": ["cmd/gonix/nar/cat.go: CatCmd.Run", "pkg/nar/reader.go: Next, Read"]}
{"id": "C108", "title": "gonix drv show prints the derivation as JSON", "statement": "For every derivation a store returns, whatever bytes it contains, 'gonix drv show' prints in the formats json and json-pretty exactly one JSON text (RFC 8259) and a newline. Both print the same value: the object with outputs, inputSrcs, inputDrvs, system, builder, args and env, maps in the order of their keys, empty hashes omitted, with U+FFFD in place of bytes that are not UTF-8; a JSON decoder gets exactly this object back. The output does not depend on the order in which Go visits maps. Errors of the store are returned, unknown formats are errors.", "quantifier": "all derivations with all contents, both formats, all versions of the escapes, all map orders", "why_tests_cant": "Arbitrary strings in every field (quotes, control characters, invalid UTF-8, U+2028) and arbitrary maps.", "anchors": ["cmd/gonix/drv/cmd.go:ShowCmd.Run", "pkg/derivation/derivation.go:Derivation", "pkg/derivation/output.go:Output"]}
{"id": "C109", "title": "gonix drv show does not confuse derivations", "statement": "Two derivations for which 'gonix drv show' prints the same JSON are the same (up to the order of maps and the name that is not shown).", "quantifier": "all pairs of derivations", "why_tests_cant": "Quantifies over pairs of derivations.", "anchors": ["cmd/gonix/drv/cmd.go:ShowCmd.Run"]}
{"id": "C110", "title": "Name of derivations with structured attributes", "statement": "For a derivation whose environment has __json, ReadDerivation takes as its name the value of the member \"name\" of the JSON object in __json; without such an object the text is rejected, and it does not panic.", "quantifier": "all derivation texts, all values of __json (any bytes)", "why_tests_cant": "All JSON texts with all escapes, duplicates, nestings and invalid bytes.", "anchors": ["pkg/derivation/parser.go:parseDerivation", "pkg/derivation/derivation.go:Name"]}
{"id": "C111", "title": "ParseLS on bytes", "statement": "On any data, ParseLS succeeds exactly if the data begins with a JSON object made of known fields with values of the right kinds, whose version is 1, with valid entry names and no null entries, and consistent nodes with entries; the result is what the text says (last value of a field, entries of one name replaced, keys in any case), whatever follows and in whatever order Go ranges over maps. It panics for null entries only. A listing that was written with encoding/json is read back as it is.", "quantifier": "all byte sequences, all map orders, all listings", "why_tests_cant": "All JSON texts: nesting, duplicate and case-variant keys, number forms, escapes, invalid UTF-8, trailing data.", "anchors": ["pkg/nar/ls/list.go:ParseLS", "pkg/nar/ls/list.go:Root", "pkg/nar/ls/list.go:Node", "pkg/nar/ls/list.go:validateNode"]}
{"id": "C112", "title": "A parsed .narinfo survives printing and parsing again", "statement": "For every text that narinfo.Parse accepts, String of the result does not panic, and parsing what it prints gives the same NarInfo.", "quantifier": "every text accepted by narinfo.Parse (any number, order and repetition of lines)", "why_tests_cant": "The round-trip tests use a handful of complete .narinfo files; the property is about every accepted text, including repeated keys, partial files, carriage returns and unusual base64.", "anchors": ["pkg/narinfo/parser.go: Parse, splitOnce", "pkg/narinfo/types.go: (*NarInfo).String"]}
{"id": "C113", "title": "Which paths given to NewFromURI mean themselves", "statement": "store.NewFromURI given a plain directory path opens the file-system store in exactly this directory if and only if the path contains no control characters and none of #, ? and %, does not begin with exactly two slashes and, if relative, has no colon in its first component; other paths open a different directory or fail. The file URL that net/url prints for an absolute path opens exactly this directory, whatever bytes it has.", "quantifier": "every non-empty path (any bytes)", "why_tests_cant": "Which paths survive URL parsing depends on every byte and on the order of the parsing steps; the claim is an equivalence over all strings.", "anchors": ["pkg/derivation/store/uri.go:NewFromURI", "pkg/derivation/store/filesystem.go:NewFSStore"]}
{"id": "C114", "title": "Requests of the HTTP store", "statement": "For a base URL with scheme http or https and a host (whose zone, if it is an IP literal with one, is ASCII: exactly otherwise there is no request), every request of HTTPStore goes to the scheme, user, host (without the colon of an empty port), query and fragment of the base URL and to its path followed by the last component of the derivation path; for store paths this is the child of the base path with the name of the store path, and different store paths are requested at different URLs.", "quantifier": "every base URL text that url.Parse accepts and every derivation path", "why_tests_cant": "The URL is parsed, changed, printed and parsed again; that nothing is lost or reinterpreted must hold for every user, host, port, query, fragment and path.", "anchors": ["pkg/derivation/store/http.go:getURL", "pkg/derivation/store/http.go:constructRequest", "pkg/derivation/store/uri.go:NewFromURI"]}
{"id": "C115", "title": "MapStore and the caller's derivations", "statement": "What MapStore.Get returns for a path is what was put with this path, also if the program modifies the derivations it has pointers to. (This is false: Get delivers the pointer that was put last, so it shows every later modification through it, without a check; it holds for programs that do not modify a derivation after a successful Put.)", "quantifier": "every program of Put calls and modifications of derivations, from an empty store, and every path", "why_tests_cant": "It quantifies over all interleavings of calls with modifications through retained pointers.", "anchors": ["pkg/derivation/store/map.go:Put", "pkg/derivation/store/map.go:Get"]}
{"id": "C116", "title": "nar.Writer and the caller's headers", "statement": "The archive that a Writer produces depends only on the headers as they were when they were passed to WriteHeader, also if the program modifies or reuses the Header structs afterwards. (This is false: the Writer keeps the pointers of open nodes. It holds for programs that modify only headers of nodes that are closed again; passing a modified header again while its node is the innermost one fails unless it is a directory, and then writes an entry named '.', whatever its path.)", "quantifier": "every program of modifications, WriteHeader, Write and Close calls, every output stream", "why_tests_cant": "It quantifies over all interleavings of calls with modifications of retained headers and over all failing streams.", "anchors": ["pkg/nar/writer.go:WriteHeader", "pkg/nar/writer.go:emitNode"]}
{"id": "C117", "title": "A NAR identifies its tree", "statement": "Two different trees never have the same NAR serialisation, and no serialisation is the beginning of another one; so two dumps that return nil and write the same bytes (and so have the same NarHash) have dumped the same tree, and two Writer sessions that succeed and write the same bytes were given the same headers and data.", "quantifier": "all pairs of trees, all pairs of file system trees and filters, all pairs of sessions", "why_tests_cant": "Injectivity is a statement about all pairs of values.", "anchors": ["pkg/nar/writer.go:Writer", "pkg/nar/dump.go:DumpPathFilter", "pkg/wire/write.go:WriteString"]}
{"id": "C118", "title": "Dumping and reading back", "statement": "When DumpPathFilter returns nil, what it wrote is read back by Reader as exactly the file system tree without what the filter rejects: the headers in order, the contents, then io.EOF with the source right after the archive; gonix nar cat prints every file of it exactly, and gonix nar ls -R / lists every entry.", "quantifier": "all file system trees and filters, all sizes of Read calls, all data after the archive", "why_tests_cant": "It ranges over all trees, filters and read sizes and composes four components.", "anchors": ["pkg/nar/dump.go:DumpPathFilter", "pkg/nar/reader.go:Reader", "cmd/gonix/nar/cat.go:Run", "cmd/gonix/nar/ls.go:Run"]}
{"id": "C119", "title": "Signing, publishing and trusting a narinfo", "statement": "A well-formed NarInfo that is signed with a fresh key, printed and parsed by another party arrives unchanged and verifies with the public key (if no other signature of that name stands before it). If signatures cannot be forged and the published values have store paths in the strict sense, then every text that is parsed, passes Check and is verified agrees with a published value in store path, NAR hash, NAR size and references.", "quantifier": "all well-formed values, key names, seeds and correct signature schemes; all texts and signatures an attacker can make", "why_tests_cant": "The second part quantifies over every text an attacker can write.", "anchors": ["pkg/narinfo/signature/secret_key.go:Sign", "pkg/narinfo/signature/signature.go:VerifyFirst", "pkg/narinfo/fingerprint.go:Fingerprint", "pkg/narinfo/check.go:Check", "pkg/narinfo/parser.go:Parse"]}
{"id": "C120", "title": "One derivation in all stores", "statement": "A derivation that MapStore.Put accepted is delivered by MapStore under the returned path; a directory (FSStore) or an HTTP server (HTTPStore) that has the text of WriteDerivation at that path delivers an equal derivation; and each of them has the same path and the same text again.", "quantifier": "all histories of Put calls, all derivations with closed strings, all directories, base URLs and servers", "why_tests_cant": "It ranges over all derivations, histories and base URLs.", "anchors": ["pkg/derivation/store/map.go:Put", "pkg/derivation/store/fs.go:Get", "pkg/derivation/store/http.go:Get", "pkg/derivation/derivation.go:DrvPath"]}
{"id": "C121", "title": "The NAR reader does not depend on how its input is delivered", "statement": "A nar.Reader on an io.Reader that returns its bytes in arbitrary pieces (short reads, empty reads, the final io.EOF or other error with or after the last data) returns from NewReader, Next and Close exactly what it returns on the same bytes in one piece, and from Read the same bytes in possibly smaller portions. In particular the archive of a tree is read back completely from any such reader: every header, contents delivered in order and io.EOF only after all of them, and the underlying reader ends exactly behind the archive.", "quantifier": "all byte streams, all ways of cutting them into pieces, all sequences of Next, Read (any buffer sizes) and Close; all trees", "why_tests_cant": "the number of fragmentations and interleavings is unbounded; tests use bytes.Reader or a file, which never return short reads", "anchors": ["pkg/nar/reader.go: NewReader, Next, Read, Close, parseNode, expectString", "pkg/wire/bytes_reader.go: BytesReader", "pkg/wire/read.go"]}
{"id": "C122", "title": "Reading a truncated or still growing NAR yields exactly a beginning of it", "statement": "If one input delivers a beginning of what another input delivers and then ends with any error, then for any sequence of Next and Read calls the headers nar.Reader returns on the first are a beginning of those it returns on the second; each Next that succeeds on the first succeeds with the same header on the second, and what can be read after it is a beginning of what can be read on the second. Conversely a header that the second returns without having touched the missing end is returned on the first too, with its whole contents if they do not reach into the missing end. In particular, on a NAR cut anywhere the headers are the first entries of the tree, the data are beginnings of the files' contents, and `gonix nar ls` and `gonix nar cat` print a beginning of what they print for the whole archive.", "quantifier": "all pairs of inputs of which one is a beginning of the other (any bytes, valid NAR or not), all end errors, all sequences of Next and Read calls without Close, all buffer sizes, all cut points, all PATH arguments", "why_tests_cant": "Relates two runs of the parser at every possible cut point, including inside length words, strings, paddings and contents, for every archive and every interleaving of reads.", "anchors": ["pkg/nar/reader.go: NewReader, parseNode, Next, Read", "pkg/wire/read.go: ReadUint64, readPadding, ReadBytesFull, ReadString", "pkg/wire/bytes_reader.go: Read, Close", "cmd/gonix/nar/ls.go: LsCmd.Run", "cmd/gonix/nar/cat.go: CatCmd.Run"]}
{"id": "C123", "title": "Dumping to a writer that fails: exactly the first k bytes, and never a false success", "statement": "If the writer given to DumpPath or DumpPathFilter accepts k bytes and then fails, it has received exactly the first k bytes (or all, if fewer) of what the same dump sends to a writer that never fails. If everything fits, the result is the same as that of the dump to the writer that never fails; if not, nil is not returned. So a dump that would succeed fails exactly if the archive is longer than k, and a dump that returns nil has written a complete NAR. The same holds for any sequence of calls on a nar.Writer: the calls return the same up to one that reports an error.", "quantifier": "all file trees (including unreadable nodes and files changing size), all filters, all paths, all k; for the writer all sequences of WriteHeader, Write and Close calls", "why_tests_cant": "Every write of the archive is a possible failure point; the claim compares a run with each failure point with the undisturbed run for every tree.", "anchors": ["pkg/nar/dump.go: DumpPath, DumpPathFilter, dumpPath", "pkg/nar/writer.go: NewWriter, WriteHeader, Write, Close, emitNode", "pkg/wire/bytes_writer.go: Write, Close", "pkg/wire/write.go: WriteString, writePadding"]}
{"id": "C124", "title": "narinfo.Parse and ReadDerivation do not depend on how the input arrives", "statement": "narinfo.Parse (through bufio.Scanner, with its 1 MiB buffer, buffer shifting, and limit of 100 consecutive empty reads) and derivation.ReadDerivation (through io.ReadAll, however append grows the buffer) return for a reader that delivers its data in arbitrary pieces, with empty reads in between, and with its error after or together with the last piece, exactly what they return for the whole input in one piece. Exceptions, characterised exactly for Parse: after 101 empty reads in a row the input counts as ending there with io.ErrNoProgress; and a last line without newline of exactly 1048576 bytes is accepted when the reader returns its last bytes together with its error, and refused as too long otherwise.", "quantifier": "all ways of cutting any input into pieces, all numbers of empty reads, all end errors, all strictly growing buffer policies", "why_tests_cant": "Every cut point (inside keys, separators, CR LF pairs, at the buffer boundary) and every pattern of short reads is a different schedule.", "anchors": ["pkg/narinfo/parser.go: Parse", "pkg/derivation/parser.go: ReadDerivation"]}
{"id": "C125", "title": "Output to any io.Writer: nil means everything was written", "statement": "For every io.Writer that reports an error whenever it accepts less than it was given, and that may otherwise fail at any call, recover, and depend on everything before: the calls of a nar.Writer return, up to the first error, what they return on a writer that never fails, and the bytes accepted until then are a prefix of what is written there; DumpPathFilter and WriteDerivation return nil only if the writer accepted exactly the complete output; gonix nar dump-path (which writes through a bufio.Writer) and gonix nar cat give the standard output a prefix of the right output in every case, all of it when they succeed, and with a standard output that never fails return what the operation itself returns.", "quantifier": "all writers (any state machine) obeying the rule on short writes, all call sequences, all file system trees and filters, all derivations, all NAR inputs", "why_tests_cant": "A writer can fail at any of the thousands of small writes, with any number of bytes accepted, also in the deferred Close and in the final Flush.", "anchors": ["pkg/wire/write.go", "pkg/wire/bytes_writer.go", "pkg/nar/writer.go", "pkg/nar/dump.go: DumpPathFilter", "pkg/derivation/encode.go: WriteDerivation", "cmd/gonix/nar/dump.go: DumpPathCmd.Run", "cmd/gonix/nar/cat.go: CatCmd.Run"]}
{"id": "C126", "title": "Substituting a store path", "statement": "If a .narinfo text from anywhere is parsed, passes Check and is verified with a trusted key that only an honest publisher can sign with, and bytes from anywhere have the SHA-256 it gives, then for something that was published, with the store path, the references and the size in the text, either the bytes are a SHA-256 collision with the published archive, or reading them with nar.Reader gives exactly the files the publisher dumped, with their contents, and then io.EOF.", "quantifier": "all signature schemes and hash functions, all lists of publications (file system trees with any filter), all .narinfo texts, all downloaded bytes, all sizes of Read calls", "why_tests_cant": "it quantifies over what an attacker may send", "anchors": ["pkg/narinfo/parser.go Parse", "pkg/narinfo/check.go Check", "pkg/narinfo/fingerprint.go", "pkg/narinfo/signature/public_key.go VerifyFirst", "pkg/nar/dump.go DumpPathFilter", "pkg/nar/reader.go NewReader Next Read"]}
{"id": "C127", "title": "Hashing and scanning while dumping", "statement": "DumpPathFilter into a hash, a ReferenceScanner or any io.Writer whose state depends only on the bytes so far leaves it in the state for the whole archive. The references that a ReferenceScanner then reports are exactly the candidates whose hash part occurs in the path, the contents or the link target of an entry of the dumped tree: nothing arises from the format, nothing is lost by the pieces in which it is written; store paths written out in a file, a link or a name are always found.", "quantifier": "all lists of candidates, all file system trees with any filter, all writers of this kind", "why_tests_cant": "it holds for every tree and every position of a hash in the archive, across the pieces in which the archive is written", "anchors": ["pkg/nar/dump.go DumpPathFilter", "pkg/storepath/references/refs.go ReferenceScanner Write References", "pkg/wire/write.go"]}
{"id": "C128", "title": "Goroutines using pkg/wire at the same time do not disturb each other", "statement": "The functions of pkg/wire share a pool of 8 byte buffers between all goroutines. Whatever old data the buffers contain, whichever buffer a call gets, however the accesses of the goroutines are interleaved and whatever the garbage collector drops from the pool: each goroutine that works on a reader and a writer of its own gets the results, and leaves its reader and writer in the state, that it would alone. No buffer is ever used by two goroutines at once, and no goroutine has to wait for another.", "quantifier": "all numbers of goroutines, all their programs of calls, all contents and fragmentations of their readers, all failure points of their writers, all initial pools, all schedules at the granularity of single Read and Write calls", "why_tests_cant": "The interleavings, and the stale contents of pooled buffers, are chosen by the scheduler and the garbage collector; a test run sees one of them.", "anchors": ["pkg/wire/write.go:bufPool", "pkg/wire/write.go:WriteUint64", "pkg/wire/read.go:ReadUint64", "pkg/wire/read.go:readPadding"]}
{"id": "C129", "title": "Looking up a store path by its hash part", "statement": "After any history of calls on the store database, QueryPathFromHashPart(prefix) reports no rows only if no valid path begins with the prefix, and otherwise returns a valid path that is not smaller than the prefix. As SQLite answers from the index on the path column (smallest first), the path it returns begins with the prefix exactly if some valid path does; in particular, for /nix/store/HASH it is a store path with this hash part exactly if there is one. The text of the statement, which has no order by, does not ensure the latter.", "quantifier": "all histories of calls, with and without foreign keys, all prefixes, all answers SQLite may give", "why_tests_cant": "The order in which rows are visited is up to the query planner, and the contents of the table are unbounded.", "anchors": ["pkg/sqlite/nix_v10/query.sql:QueryPathFromHashPart", "pkg/sqlite/nix_v10/query.sql.go:QueryPathFromHashPart"]}
{"id": "C130", "title": "The goroutine of a nar.Writer ends", "statement": "Whatever the Go scheduler does, once the calls on a nar.Writer have returned, its goroutine ends if Close was called (whatever it returned) or a WriteHeader with a header that passes Validate returned an error; in all other cases it stays for ever, waiting for a header. A process that is blocked in WriteHeader has no such goroutine either.", "quantifier": "all sequences of calls, all writers that fail at any point, all schedules", "why_tests_cant": "A leaked goroutine is invisible to the results of the calls, and schedules and histories are unbounded.", "anchors": ["pkg/nar/writer.go:NewWriter", "pkg/nar/writer.go:Writer.Close"]}
{"id": "C131", "title": "Which calls on a nar.Writer return", "statement": "After any calls on a nar.Writer that returned, with headers of the three types of the format: Close returns; WriteHeader of a header that passes Validate panics exactly if Close was called before and blocks for ever exactly if, without Close, an earlier such call failed; Write never blocks and panics only if no WriteHeader has succeeded yet or one failed.", "quantifier": "all sequences of calls, all points of failure of the underlying writer", "why_tests_cant": "The state of the writer depends on the whole history of calls and on where the underlying writer fails.", "anchors": ["pkg/nar/writer.go:Writer.WriteHeader", "pkg/nar/writer.go:Writer.Write", "pkg/nar/writer.go:Writer.Close"]}
{"id": "C132", "title": "DumpPath always returns and leaves no goroutine behind", "statement": "DumpPath and DumpPathFilter neither panic nor block for ever, whatever the file system contains and wherever it or the writer fails; what they do with the nar.Writer ends with Close, and then, under every schedule, its goroutine has ended.", "quantifier": "all file system trees with errors anywhere, all filters, all points of failure of the writer, all schedules", "why_tests_cant": "Trees, points of failure and schedules are unbounded.", "anchors": ["pkg/nar/dump.go:DumpPathFilter", "pkg/nar/dump.go:dumpPath", "pkg/nar/writer.go:Writer.Close"]}
{"id": "C133", "title": "Output paths follow the graph of derivations", "statement": "The hash of a derivation modulo fixed-output derivations is defined by recursion over the graph of derivations: that of the fixed output, or that of the text in which the input derivations are named by their hashes. After any history of Puts on a MapStore, Put accepts a derivation exactly if it is valid, its input derivations are stored and its output paths are the Nix store paths made from these hashes of the stored graph; every stored derivation has such a hash, which CalculateDrvReplacement delivers, and such output paths. Therefore acceptance depends only on the derivation and the graph below it, not on the order of the Puts or on what else is stored. A BadgerStore accepts the same derivations by the same rule, but only those with at most one input derivation and the fixed-output ones.", "quantifier": "all histories of Puts, all graphs of derivations of any depth, all hash functions", "why_tests_cant": "The store computes the hashes incrementally with a table that grows with the history; graphs and histories are unbounded.", "anchors": ["pkg/derivation/store/map.go:MapStore.Put", "pkg/derivation/hashes.go:CalculateDrvReplacement", "pkg/derivation/hashes.go:CalculateOutputPaths", "pkg/derivation/store/badger.go:BadgerStore.Put"]}
{"id": "C134", "title": "Files that are opened are closed", "statement": "DumpPath and DumpPathFilter have at most one file open at a time and have closed all of them when they return, for every tree, filter and writer and also on errors: with a single free file handle they do exactly what they do without a limit. HTTPStore.Get and Has close the body of every response. FSStore.Get closes the file, so that it can be called any number of times.", "quantifier": "all file system trees of any depth, all filters, writers, responses, and all numbers of calls", "why_tests_cant": "A leak of file handles shows only after the process has used up its limit; tests make a few calls on small trees.", "anchors": ["pkg/nar/dump.go:dumpPath", "pkg/derivation/store/filesystem.go:FSStore.Get", "pkg/derivation/store/http.go:HTTPStore.Get", "pkg/derivation/store/http.go:HTTPStore.Has"]}
{"id": "C135", "title": "Archives one after another", "statement": "Dumping any number of trees to one stream puts their archives there one after another, with nothing between; as many readers, each created on the same stream after the one before has returned io.EOF, return exactly the entries and contents of each tree, however much of the contents is read, and leave the stream exactly after the last archive. nix-store --export and the daemon protocol embed archives in longer streams this way.", "quantifier": "all lists of trees, filters and reading plans, all bytes that follow", "why_tests_cant": "A reader that consumes one byte too many or too few, for some shape of tree or some reading plan, corrupts only what follows.", "anchors": ["pkg/nar/reader.go:NewReader", "pkg/nar/reader.go:Reader.Next", "pkg/nar/reader.go:Reader.Read", "pkg/nar/dump.go:DumpPathFilter"]}
{"id": "C136", "title": "Messages of several values", "statement": "Any sequence of integers, booleans and byte strings written with the functions of pkg/wire to one writer is read back by the same sequence of reading calls, and what follows it is left in the reader, however the bytes arrive. Exactly the texts of such sequences are received, apart from the padding, which is not looked at. No message is the beginning of a different one with the same kinds; a message that is cut off is received only if no more than padding at its very end is missing.", "quantifier": "all sequences of kinds and values, all bytes that follow, all fragmentations, all points where it is cut", "why_tests_cant": "Alignment errors depend on the length of every earlier value; tests write one value at a time.", "anchors": ["pkg/wire/read.go:ReadUint64", "pkg/wire/read.go:ReadBool", "pkg/wire/read.go:ReadBytesFull", "pkg/wire/write.go:WriteUint64", "pkg/wire/write.go:WriteBool", "pkg/wire/write.go:WriteBytes"]}
{"id": "C137", "title": "A Hash does not change", "statement": "A Hash is a value: once it has been made by NewHash or by parsing, Format gives the same text for ever, whatever the program does with its own buffers, and the digest keeps the size of the algorithm.", "quantifier": "all programs that allocate, slice and assign to byte arrays and make hashes, all later moments", "why_tests_cant": "Whether a buffer is shared shows only in programs that go on using it.", "anchors": ["pkg/nixhash/hash.go:NewHash", "pkg/nixhash/hash.go:Hash.Digest", "pkg/nixhash/hash.go:Hash.Format", "pkg/nixhash/parse.go:ParseAny"]}
{"id": "C138", "title": "Memory needed for reading", "statement": "Reading an archive from somebody else needs bounded memory: no announced length makes ReadBytesFull allocate more than its limit, and no archive makes the reader run out of memory or stack.", "quantifier": "all inputs, all limits of memory, all sequences of calls", "why_tests_cant": "Inputs that exhaust memory depend on the machine and are too large for a test.", "anchors": ["pkg/wire/read.go:ReadBytesFull", "pkg/nar/reader.go:Reader.parseNode", "pkg/nar/reader.go:Reader.expectString"]}
{"id": "C139", "title": "Where the commands print", "statement": "A gonix command prints its result on the standard output and nothing else there or on the standard error, and if it reports success the whole result has been written.", "quantifier": "all archives, file trees, derivations and arguments; all behaviours of the two standard streams", "why_tests_cant": "Which writes of a stream fail, and when, is unbounded.", "anchors": ["cmd/gonix/nar/ls.go:LsCmd.Run", "cmd/gonix/nar/cat.go:CatCmd.Run", "cmd/gonix/nar/dump.go:DumpPathCmd.Run", "cmd/gonix/drv/cmd.go:ShowCmd.Run"]}
{"id": "C140", "title": "Derivations written as JSON are read back", "statement": "A Derivation that is written as JSON (gonix drv show, encoding/json with the tags of the struct) and read back with json.Unmarshal is the same derivation: it validates, is written as ATerm and has its path like the original.", "quantifier": "all derivations, whatever bytes they contain; both JSON formats; all orders of map iteration", "why_tests_cant": "The strings, keys and map orders are unbounded.", "anchors": ["pkg/derivation/derivation.go:Derivation", "pkg/derivation/output.go:Output", "cmd/gonix/drv/cmd.go:ShowCmd.Run", "pkg/derivation/derivation.go:Validate", "pkg/derivation/drv_path.go:DrvPath"]}
{"id": "C141", "title": "Validate never panics on derivations read from JSON", "statement": "Whatever JSON text is unmarshalled into a Derivation without an error, Validate returns nil or an error; if it returns nil, no output is nil.", "quantifier": "all JSON texts; all orders of map iteration", "why_tests_cant": "The texts are unbounded, and the panic depends on the order of iteration.", "anchors": ["pkg/derivation/derivation.go:Validate", "pkg/derivation/derivation.go:Derivation"]}
{"id": "C142", "title": "gonix drv show, from the store URI to the output", "statement": "For every value of --drv-store, path and format, gonix drv show prints a derivation exactly if the URI names a store that has it under the path and the format is aterm, json or json-pretty: the file with the last component of the path in the directory of the URI (by default, for store paths, the path itself), a 2xx answer of the server, or an entry of the database. It prints the ATerm text that WriteDerivation writes, or a JSON text of the object of the derivation. A URI that names no store makes the program panic, a format that does not exist is an error. A derivation accepted by a MapStore and written to its file is shown as exactly that text.", "quantifier": "every URI, path, format, file system, server and database", "why_tests_cant": "All URIs, all contents of the stores and all derivations.", "anchors": ["cmd/gonix/main.go: main", "cmd/gonix/drv_store_uri_mapper.go: drvStoreURIDecoder", "cmd/gonix/drv/cmd.go: ShowCmd.Run", "pkg/derivation/store/uri.go: NewFromURI"]}
{"id": "C143", "title": "nixbase32 Encode and Decode touch only the destination", "statement": "If the destination and the source of Encode or Decode are parts of one array that do not overlap, Encode turns the first EncodedLen bytes of the destination into the encoding of the source and changes no other byte of the array, and panics exactly if the capacity of the destination is smaller; Decode returns what it returns for separate buffers, leaves the destination as it does there and changes no other byte. (For overlapping slices, such as encoding or decoding in place, neither holds.)", "quantifier": "every array and every pair of slices of it", "why_tests_cant": "All contents, offsets and lengths; an access to the wrong place shows only if the neighbouring bytes are checked.", "anchors": ["pkg/nixbase32/nixbase32.go: Encode, Decode"]}
{"id": "C144", "title": "Dumping a file system that changes", "statement": "Whatever the system calls of DumpPath and DumpPathFilter answer, and however the file system changes while it is dumped, if nil is returned then every node was looked at once, in order, and what was written is the NAR serialisation of exactly the tree that was seen (each file with the size it had when it was looked at, each directory with the entries listed). If what is seen can be written, nil is returned. The call never panics, and returns if paths cannot be arbitrarily long. If the file system has a tree at the path and does not change, exactly what the filter leaves of that tree is written, and every system call is made with the path of the node it is about, for absolute, relative and unclean paths. The empty path means the root of the file system. The same tree gives the same bytes wherever it is and whatever file system holds it.", "quantifier": "every file system machine (any state, any answers, changes at every call), every path and filter", "why_tests_cant": "Changes between any two system calls, and all trees.", "anchors": ["pkg/nar/dump.go: DumpPath, DumpPathFilter, dumpPath"]}
{"id": "C145", "title": "An error comes without a value", "statement": "If ReadDerivation or ParseAny returns an error, it returns no value beside it that could be mistaken for a result; if the error is nil, the value is there and complete. (False: ReadDerivation returns the derivation beside the error of Validate, exactly if the text can be parsed but the derivation is refused; ParseAny returns a partly filled hash, whose String panics exactly if the length of the text is that of no encoding, and whose digest is what decoding left: in base 16 the bytes of the longest beginning of whole pairs.)", "quantifier": "every input, every expected algorithm", "why_tests_cant": "All inputs, in particular all the ways to fail.", "anchors": ["pkg/derivation/parser.go: ReadDerivation", "pkg/nixhash/parse.go: ParseAny", "pkg/nixhash/hash_with_encoding.go: String"]}
{"id": "C146", "title": "A NAR is written and read in step", "statement": "At every moment of a session with a nar.Writer in which all calls succeeded so far, a reader of what has reached the underlying writer returns everything that was said: all headers, with their contents, the last header as soon as its WriteHeader returned, and every byte of its contents as soon as its Write returned. It returns no header that was not said. What was written is never taken back: further calls only append.", "quantifier": "every history of calls (with clean paths, known types and names a reader accepts), every point at which it stops, every error with which the stream ends, every way of reading", "why_tests_cant": "All histories and all crash points.", "anchors": ["pkg/nar/writer.go: WriteHeader, Write, emitNode", "pkg/nar/reader.go: NewReader, Next, Read, parseNode"]}
{"id": "C147", "title": "MapStore and several goroutines", "statement": "A MapStore may be used by any number of goroutines at once: there is no data race on its maps, and every call returns what it returns when the calls are executed one after the other. (This is false, as its documentation says: it has no lock. Whenever an accepted Put overlaps any other accepted call there is a schedule with a data race. It holds if no Put overlaps another call, for example under a sync.RWMutex held for writing during Put; Get and Has may overlap each other.)", "quantifier": "any number of goroutines, all histories of Put, Get and Has, all schedules", "why_tests_cant": "All interleavings of unboundedly many calls.", "anchors": ["pkg/derivation/store/map.go: MapStore, Put, Get, Has", "pkg/derivation/store/util.go: validateDerivationInStore, checkOutputPaths"]}
{"id": "C148", "title": "The strings of a derivation do not change", "statement": "The strings of a derivation that ReadDerivation returned are parts of the buffer it read the text into, not copies. Nevertheless they never change: at every moment of a program that reads any number of derivations and assigns whatever it likes to its own arrays (also to those the texts came from, such as the memory that Badger hands to BadgerStore.Get), the derivations it has are those that ReadDerivation returned, for readers that, as io.Reader demands, do not keep the slices they were given.", "quantifier": "all programs (sequences of allocations, assignments and reads), all readers and fragmentations, all growth of the buffer, all texts", "why_tests_cant": "All later writes of a program; aliasing shows only if some later write hits the buffer.", "anchors": ["pkg/derivation/helpers.go: unsafeString", "pkg/derivation/parser.go: ReadDerivation, parseDerivation, arrayEach, unquote, unquoteSlice", "pkg/derivation/store/badger.go: Get"]}
{"id": "C149", "title": "Which JSON texts are read into a Derivation, and as which one", "statement": "json.Unmarshal into a new Derivation accepts exactly the JSON texts (with white space around them, nested at most 10000 deep) that are null or an object in which every member with the key of a field, in any case, has null or a value of the field's kind; other keys are ignored. The result is determined by the text: of several values of a string field the last one that is not null counts; maps given in several places are taken together, null drops what came before, and for a key given twice the last value counts; in arrays null stands for the string that was there before. Every other text is refused with an error, never a panic.", "quantifier": "all byte strings given to json.Unmarshal and all derivations (outputs may be nil pointers)", "why_tests_cant": "The texts are unbounded in length, nesting, order and repetition of keys, and the case of every key can vary; tests read a few texts that were written by the package itself.", "anchors": ["pkg/derivation/derivation.go:Derivation", "pkg/derivation/output.go:Output"]}
{"id": "C150", "title": "Queries inside and outside of transactions", "statement": "The query methods of the sqlite packages run on the database handle, or, after WithTx, in the transaction last given to WithTx and in no other. Hence, on a database file, for any interleaving of statements, transactions, failures and crashes: what is in the database for good is exactly what the successful calls outside of transactions and the committed transactions leave when executed one after the other, in the order of these calls and Commits, and that is also what these calls returned; a transaction that was rolled back, whose Commit failed or that was open at a crash adds nothing; each transaction sees one committed state (from between its beginning and its first call) and its own changes, nothing else. In particular a Nix database written only through this package with foreign keys enforced keeps its integrity.", "quantifier": "all databases and statements, all interleavings of any number of transactions and calls, all failures of statements and commits, all crash points, all chains of WithTx", "why_tests_cant": "Interleavings, failures and crash points are unbounded; a call that escapes its transaction shows only if something else happens at the right time.", "anchors": ["pkg/sqlite/nix_v10/db.go:New,WithTx,DBTX", "pkg/sqlite/binary_cache_v6/db.go", "pkg/sqlite/eval_cache_v5/db.go", "pkg/sqlite/fetcher_cache_v2/db.go", "pkg/sqlite/sqlite.go"]}
{"id": "C151", "title": "Queries return all rows or an error, and give back their connection", "statement": "A query method of the sqlite packages that returns a list returns nil as error exactly if the query was accepted, every row could be scanned and the rows ended without an error, and then it returns all rows in order: never a part of them as a success, whatever fails in the middle (a cancelled context, I/O, a value of the wrong kind). A method for one row returns the first row, or sql.ErrNoRows exactly if there is none (unless the database itself answers with this error). Whatever the database does, the connection is given back, so one connection is enough for any number of queries one after the other. QueryPathFromHashPart returns its own argument beside an error.", "quantifier": "all row types, all sequences of rows, all points of failure (opening, scanning any row, end of rows, closing), all connection limits", "why_tests_cant": "Failures in the middle of a result cannot be provoked at every row, and a forgotten check of rows.Err shows only then.", "anchors": ["pkg/sqlite/nix_v10/query.sql.go:QueryReferences,QueryReferrers,QueryValidDerivers,QueryDerivationOutputs,QueryPathInfo,QueryPathFromHashPart", "pkg/sqlite/binary_cache_v6/query.sql.go", "pkg/sqlite/eval_cache_v5/query.sql.go", "pkg/sqlite/fetcher_cache_v2/query.sql.go"]}
{"id": "C152", "title": "Filters with a state", "statement": "A SourceFilterFunc may be any function: it may remember what it was asked, look at the file system and answer differently each time. Whatever it does, if DumpPathFilter returns nil, then every node that is not below a rejected directory was looked at once, the filter was asked about it once (after lstat and before the node was opened, read or listed), and what was written is the NAR serialisation of exactly what was taken; and the call succeeds whenever what is taken can be written. On a file system that does not change, a filter with its own state gets the nodes in pre-order, each with its path and type, and ends in the state it has after these calls; a filter that only depends on its arguments is asked about exactly the nodes that are not below a rejected directory, and gives the dump of C144.", "quantifier": "all filters (functions of path, type and any state, shared with the file system or not), all file systems and changes of them, all trees and paths", "why_tests_cant": "The order and number of the calls of a filter on every tree, and every way its answers may change in between, cannot be enumerated.", "anchors": ["pkg/nar/dump.go:DumpPathFilter", "pkg/nar/dump.go:dumpPath", "pkg/nar/dump.go:SourceFilterFunc"]}
{"id": "C153", "title": "A truncated .drv file is never read as a derivation", "statement": "ReadDerivation returns an error (no derivation, and no panic) for every strict beginning of the text of a derivation in the format of Nix, whichever way the stream ends. So what WriteDerivation has written when its writer fails is never read back as another derivation, and neither FSStore nor HTTPStore nor BadgerStore deliver a derivation from a truncated file, response or value. (For the other texts that the parser accepts beyond the format this is false.)", "quantifier": "every text of the format (any number of outputs, inputs, arguments and variables; any strings in which quotes and backslashes are escaped), every position at which it is cut, every way the stream ends, every decoder of structured attributes", "why_tests_cant": "A cut can fall anywhere, also behind brackets that occur within strings; tests cut a few files at a few places.", "anchors": ["pkg/derivation/parser.go: ReadDerivation, parseDerivation, arrayEach", "pkg/derivation/encode.go: WriteDerivation", "pkg/derivation/store/filesystem.go: Get", "pkg/derivation/store/http.go: Get", "pkg/derivation/store/badger.go: Get"]}
{"id": "C154", "title": "A truncated .narinfo file keeps what is signed, or its signatures are lost", "statement": "Take the text of a .narinfo file in which the signatures stand behind store path, NAR hash, NAR size and references, as in what NarInfo.String prints, and cut it off anywhere. If Parse accepts the rest and finds a signature, then store path, NAR hash, NAR size and references, and so the fingerprint, are those of the whole text, and the signatures are the first ones of the whole text. So VerifyFirst succeeds on a truncated text only if what it says was signed. (Without signatures truncation is not detected: Parse and Check accept texts cut off within the references or the size.)", "quantifier": "every text accepted by Parse with that order of lines (any line ends, any number of signatures and other lines), every position, every signature scheme and list of keys", "why_tests_cant": "A cut can fall anywhere, also within a hash, a number or a signature; whether a shortened value is still accepted depends on all decoders.", "anchors": ["pkg/narinfo/parser.go: Parse", "pkg/narinfo/types.go: String", "pkg/narinfo/fingerprint.go: Fingerprint", "pkg/narinfo/signature/signature.go: ParseSignature, VerifyFirst"]}
{"id": "C155", "title": "A truncated JSON text of a derivation is refused", "statement": "Every proper beginning of what gonix drv show prints in the formats json and json-pretty, other than all of it but the newline at its end, is no JSON text: json.Unmarshal returns an error. Without the newline it is read as the same derivation. More generally, if json.Unmarshal reads a Derivation from a text (in any layout) and also from a beginning of it, then both derivations are the same and only white space was cut off.", "quantifier": "every derivation (also those Validate refuses, with any bytes in the strings), both formats, every position; every text from which a Derivation is read and every beginning of it", "why_tests_cant": "A cut can fall at any byte, also within escapes, after complete members and in nested braces of any text.", "anchors": ["cmd/gonix/drv/cmd.go: ShowCmd.Run", "pkg/derivation/derivation.go: Derivation", "pkg/derivation/output.go: Output"]}
{"id": "C156", "title": "A truncated .ls listing is refused, and what is behind a listing does not matter", "statement": "If ParseLS accepts some data, it returns the same listing when anything is appended. If a JSON object is cut off anywhere before its last brace, ParseLS returns an error and does not panic. So ParseLS reads every beginning of data that it accepts as the same listing or refuses it: it never returns a part of a listing.", "quantifier": "every data accepted by ParseLS, every beginning of it and everything behind it; every JSON object in every layout; every order in which maps are visited", "why_tests_cant": "A cut can fall at any byte of any text, also behind a complete nested object.", "anchors": ["pkg/nar/ls/list.go: ParseLS, validateNode, Root, Node"]}
{"id": "C157", "title": "A truncated key or signature is refused", "statement": "If a text is read by ParseSignature, ParsePublicKey or LoadSecretKey, a strict beginning of it is read by the same function exactly if nothing but line breaks was cut off, and then as the same value. Every strict beginning of the printed form of a key or signature is refused.", "quantifier": "every accepted text, every place to cut it off; every name and data", "why_tests_cant": "A text can be cut off at any byte and have line breaks anywhere.", "anchors": ["pkg/narinfo/signature/util.go: decode, encode", "pkg/narinfo/signature/signature.go: ParseSignature", "pkg/narinfo/signature/public_key.go: ParsePublicKey", "pkg/narinfo/signature/secret_key.go: LoadSecretKey"]}
{"id": "C158", "title": "A truncated hash is refused", "statement": "If ParseAny reads a text as a hash, it refuses every strict beginning of it; so does ParseNixBase32.", "quantifier": "every accepted text, every place to cut it off, every expected algorithm", "why_tests_cant": "The encoding is recognised by the length alone, so that a beginning can have the length of another encoding.", "anchors": ["pkg/nixhash/parse.go: ParseAny, ParseNixBase32"]}
{"id": "C159", "title": "A truncated store path keeps its hash", "statement": "A strict beginning of a text that FromString or FromAbsolutePath reads is refused, or read with the same digest and with the name as far as it goes. Of the printed store path exactly the beginnings from 33 (FromString), 44 (Validate) and 45 (FromAbsolutePath) bytes on are accepted.", "quantifier": "every accepted text, every place to cut it off", "why_tests_cant": "A path can be cut off at any byte.", "anchors": ["pkg/storepath/storepath.go: FromString, FromAbsolutePath, Validate"]}
{"id": "C160", "title": "Lengths on machines with 32- and 64-bit int", "statement": "The functions of the package nixbase32 and ReadBytesFull give the same result for every slice whatever the width of int: no length overflows.", "quantifier": "every slice of every size; every width of int", "why_tests_cant": "The overflow needs slices of hundreds of megabytes on a machine with 32-bit int; on 64 bits it can only be excluded by proof.", "anchors": ["pkg/nixbase32/nixbase32.go: EncodedLen, DecodedLen, Encode, EncodeToString, DecodeString, ValidateString", "pkg/wire/read.go: ReadBytesFull"]}
{"id": "C161", "title": "A .narinfo is read in the same way on all machines", "statement": "The result of narinfo.Parse on an input does not depend on the width of int of the machine; in particular what String prints is read back everywhere.", "quantifier": "every input, every width of int", "why_tests_cant": "The tests run on one machine, and sizes range over all 64-bit numbers.", "anchors": ["pkg/narinfo/parser.go: Parse", "pkg/narinfo/types.go: NarInfo, String"]}
{"id": "C162", "title": "A .ls listing is read in the same way on all machines", "statement": "The result of ParseLS on an input does not depend on the width of int of the machine.", "quantifier": "every input, every width of int", "why_tests_cant": "The tests run on one machine; the inputs are all texts.", "anchors": ["pkg/nar/ls/list.go: ParseLS, Root"]}
{"id": "C163", "title": "Filling in the output paths", "statement": "The output paths calculated for an otherwise valid derivation can be filled in: the derivation is then valid, calculating again gives the same paths, and MapStore.Put accepts it, and accepts it with no other paths, once its input derivations are stored.", "quantifier": "every derivation whose name and output names have the allowed characters and no output is called name, every history of the store, every hash function", "why_tests_cant": "The paths depend on hashes of the whole derivation without the paths, and on the history of the store; tests use a few derivations with known paths.", "anchors": ["pkg/derivation/hashes.go: CalculateOutputPaths", "pkg/derivation/derivation.go: Validate", "pkg/derivation/store/map.go: Put"]}
{"id": "C164", "title": "Making a graph of derivations from the bottom up never fails", "statement": "A program that makes derivations one after another, each in any way from those before, calculates their output paths with the replacement strings that it has calculated itself, fills the paths in, and puts the derivations in a new MapStore, never fails if nothing else is wrong with the derivations. The store then has exactly these derivations, all valid, under their paths.", "quantifier": "every number of derivations, every way to make a derivation from those before (with their paths), every hash function", "why_tests_cant": "Each step depends on the hashes and the state of all the steps before; tests make a few known derivations.", "anchors": ["pkg/derivation/hashes.go: CalculateOutputPaths, CalculateDrvReplacement", "pkg/derivation/derivation.go: Validate", "pkg/derivation/store/map.go: Put, Get, Has"]}
{"id": "C165", "title": "Copying an archive from a Reader to a Writer", "statement": "A program that passes every header that nar.Reader returns to WriteHeader of a nar.Writer, copies the contents with io.Copy, and closes the writer, writes the NAR of a tree with exactly the entries that the reader returned, if no call fails; and an archive of a tree is copied byte for byte, without an error.", "quantifier": "every stream, every tree", "why_tests_cant": "Reader and Writer have their own rules for names, order and repeats; the copies of a few good archives do not show where they differ.", "anchors": ["pkg/nar/reader.go: Next, Read", "pkg/nar/writer.go: WriteHeader, Write, Close"]}
{"id": "C166", "title": "The entries of an archive determine it", "statement": "If a program reads all of two archives of trees with a nar.Reader, each entry to the end, with buffers of whatever sizes, and gets the same headers and the same contents in the same order, the two archives are the same, byte for byte.", "quantifier": "every two trees of which the reader refuses nothing, all sizes of buffers", "why_tests_cant": "That no two archives look the same through the reader is a statement about all pairs; tests compare the entries of one archive with what is expected.", "anchors": ["pkg/nar/reader.go: Next, Read", "pkg/nar/header.go: Header"]}
{"id": "C167", "title": "Copying a copy of an archive", "statement": "If a program copied an archive, from whatever stream, from a nar.Reader to a nar.Writer without an error, no path came twice in a row and no entry is called ), then copying the copy succeeds as well, with the same headers and contents, and writes the same bytes.", "quantifier": "every stream, also of archives that are not canonical", "why_tests_cant": "The reader takes many streams that are not archives of a tree; what is written for each of them has to be readable again.", "anchors": ["pkg/nar/reader.go: Next, Read", "pkg/nar/writer.go: WriteHeader, Write, Close"]}
{"id": "C168", "title": "Copying an archive with changed headers", "statement": "A program that reads an archive of a tree with a nar.Reader, makes for every header another one, or leaves the entry out, and passes these to a nar.Writer with the contents copied by io.Copy: if the headers so made are, with the contents, the entries of a tree of which the writer refuses nothing, no call fails and the archive of that tree is written, byte for byte.", "quantifier": "every function on headers, every tree", "why_tests_cant": "Entries that are not read before the next call of Next, and new paths and modes, in all combinations; the output must be a correct archive each time.", "anchors": ["pkg/nar/reader.go: Next, Read", "pkg/nar/writer.go: WriteHeader, Write, Close"]}
{"id": "C169", "title": "Extracting a part of an archive", "statement": "A program that copies from an archive the entries at a path and below it (h.Path == p or strings.HasPrefix(h.Path, p + \"/\")), with the path taken off, writes exactly the archive of what is at that path; no call fails.", "quantifier": "every tree, every path in it", "why_tests_cant": "Neighbours whose names begin alike, names with bytes below the slash and nested directories of all depths decide whether the prefix test picks the right entries.", "anchors": ["pkg/nar/reader.go: Next, Read", "pkg/nar/writer.go: WriteHeader, Write, Close"]}
{"id": "C170", "title": "Filtering while dumping, and filtering while copying", "statement": "For a tree on disk and a filter that keeps the root and lets nothing through below a directory it rejects, DumpPathFilter writes the same bytes as a program that reads the archive made by DumpPath, leaves out the entries that the filter rejects, and copies the others to a nar.Writer; neither fails.", "quantifier": "every tree, every such filter", "why_tests_cant": "Two traversals, one of a file system and one of a stream of headers, have to take the same decisions for every filter.", "anchors": ["pkg/nar/dump.go: DumpPathFilter, dumpPath", "pkg/nar/reader.go: Next, Read", "pkg/nar/writer.go: WriteHeader, Write, Close"]}
{"id": "C171", "title": "Putting archives into a directory", "statement": "A program that writes the header of a directory to a nar.Writer, then copies several archives one after the other, each with its root moved to a name in the directory, and closes the writer, writes exactly the archive of the directory with these entries, if they come in the order of their names; no call fails.", "quantifier": "every number of archives, all trees and names", "why_tests_cant": "The writer has to find its way back up from whatever depth the previous archive ended at, and to accept every first path of the next.", "anchors": ["pkg/nar/reader.go: Next, Read", "pkg/nar/writer.go: WriteHeader, Write, Close"]}
{"id": "C172", "title": "Unpacking an archive and dumping what was unpacked", "statement": "A program that reads the archive of a tree with a nar.Reader, with buffers of whatever sizes, and makes a directory, a symlink or a file for each header in an empty place on a disk, never finds that the parent directory is missing or that something is there already; the disk then holds exactly the tree, and DumpPath of it writes the same archive.", "quantifier": "every tree, all sizes of buffers", "why_tests_cant": "That directories come before what is in them, that no path comes twice and that nothing is lost has to hold for all trees.", "anchors": ["pkg/nar/reader.go: Next, Read", "pkg/nar/dump.go: DumpPath"]}
