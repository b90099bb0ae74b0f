# Formal model of nix-community/go-nix in Lean 4

## Layout

| directory | content |
|---|---|
| `lean/Verif/Basic.lean`, `lean/Verif/GoLib*.lean` | bytes, outcomes, and models of the Go standard library functions used by the code (trusted, see below) |
| `lean/Verif/Model/*.lean` | the model of `/repo`, function by function, each definition citing file and lines |
| `lean/Verif/Spec/*.lean` | small specifications, written without reference to the model (NAR grammar over trees, base-32 numerals, component order, abstract maps ...) |
| `lean/Verif/Lemmas/*.lean` | helper lemmas |
| `lean/Verif/Props/*.lean` | the property theorems, one file per package, with an `example` showing that the hypotheses are satisfiable |
| `lean/Verif/Props/Instances.lean` | claimed theorems applied to concrete, non-trivial arguments, all hypotheses discharged by the kernel |
| `properties.jsonl`, `MANIFEST.json`, `seeded/LOG.jsonl` | property list, claim status, mutation log |

## Modelling conventions

* A Go `string` / `[]byte` is `Bytes = List UInt8` (immutable; aliasing is mentioned where it matters; retained `*Header` and `*Derivation` pointers are modelled in `Model/Heap`, C115 and C116).
* A call that may fail returns `Res α` = `ok a | err e | panic`. `panic` stands for a Go run-time panic (slice out of range, nil dereference, explicit `panic`).
  `Err` distinguishes `io.EOF`, `io.ErrUnexpectedEOF` and other errors (with a label; error message texts are not modelled).
* `io.Reader`: a stream is the bytes it will still deliver plus the terminal error (`io.EOF` or an I/O error). Fragmented readers (list of chunks, empty chunks allowed) are modelled separately and proved equivalent (C19).
* `io.Writer`: a sink is the bytes received and an optional byte budget after which writes fail (arbitrary failure point). `Model/Out` replaces the sink by an arbitrary `io.Writer` (any state, short writes, any error), with `bufio.Writer` and `io.Copy`; C125 relates the two.
* Go maps are association lists with distinct keys; code that ranges over a map takes the list in *some* order, and order independence is a theorem (or a refuted claim) about permutations.
* Goroutine + unbuffered channels of `nar.Reader`/`nar.Writer`: a coroutine (`Coro.lean`, `Model/Nar.lean`, `Model/NarWriter.lean`) that runs only while the caller waits. `Conc.lean` and `Model/NarConc.lean` model the two goroutines with their channels and all schedules; C37 and C96 prove that the coroutine reading is right (for the Reader: as long as `Read` is not called after `Close`).
* Programs that use the API (copying, extracting, merging, filtering, unpacking archives: C165-C172; publishing and substituting: C119, C126; making graphs of derivations: C163, C164) are specifications, in `Spec/`. They are relations or functions over the calls of the modelled API; `io.Copy` is the loop of `Read` and `Write` with a buffer of 32 kB.
* `sha256`, `ed25519` are parameters (arbitrary functions); the assumptions a theorem needs about them are explicit hypotheses of that theorem.
* Recursion over a stream uses fuel; the fuel is proved sufficient (results do not change with more fuel).

## Plan per property

| id | model | method |
|---|---|---|
| C01-C06 | `Model/Nixbase32` (Encode, EncodeToString, Decode, DecodeString, ValidateString, Is) with Go shift semantics | bit-level (`Nat.testBit`) induction against `Spec/Numeral`: value of little-endian bytes / base-32 digits. C04: refuted by witness, exact characterisation proved as partial |
| C07-C12, C80-C82 | `Model/Nixhash` (+ `GoLib` hex and base64, incl. CR/LF skipping and non-strict trailing bits) | round trip lemmas per encoding, length case split; C08 refuted by witness (base64 with newlines) and proved without CR/LF |
| C13-C20 | `Model/Wire` | list lemmas; invariant over call histories for BytesReader/BytesWriter; fragmentation as refinement; C16 refuted for ReadBytesFull, proved for Close |
| C21-C24, C35 | `Model/NarWriter`, `Model/Nar`, `Model/NarDump`, `Spec/Nar` (tree -> bytes, tree -> headers) | induction over trees with an explicit stack |
| C25-C32, C79, C91, C93 | `Model/Nar` | invariants over the state machine for every byte stream; C29, C30, C32, C93 refuted by witness, partial versions proved; C93_exact by induction over the Read calls |
| C33, C34, C38, C39, C75 | `Model/Nar`, `Model/NarLs` | exact characterisations; refutation where the code differs from its comment |
| C36 | `Model/NarWriter` | state machine |
| C37, C96 | `Conc`, `Model/NarConc` (goroutines as processes; channels; arbitrary scheduler) | inductive invariant over reachable configurations relating each to a state of the sequential model; termination by a well-founded order on processes |
| C97, C98 | `Model/StoreConc` (calls as sequences of Badger transactions; any number of goroutines; arbitrary scheduler; failing transactions; crashes) | inductive invariant over executions: an order of the calls is built along the execution, each call takes effect with its last transaction, what a waiting call has learnt stays true because the database only grows |
| C99 | parser.go as in C56-C61 | grammar as inductive relations in `Spec/DrvGrammar`; both inclusions by induction over the scanner loop and the callbacks |
| C100 | reader.go as in C25-C31, wire/read.go | `RelNode`/`CutNode` grammar in `Spec/NarRelaxed`; soundness by `Parses` traces, completeness by `Tr` traces, both by induction over the recursion of the parser |
| C101 | writer.go as in C21, C22 | the two directions C21 and C22 combined; every history splits into headers with the pieces written after each |
| C102 | parse.go as in C07-C11 | grammar and numerals in `Spec/HashText`; digit-wise induction for hexadecimal and base64, numeral uniqueness for nixbase32 |
| C103 | storepath.go as in C40-C44 | `walk` in `Spec/StorepathText` against the components of path.Clean |
| C104 | storepath.go:18-26, `GoRe` (expressions as syntax trees with their languages) | inversion of the match relation |
| C105 | badger.go, map.go as in C67, C68 | simulation between the Badger store and the MapStore of the filtered history |
| C106 | ls.go, reader.go as in C72, C100 | induction over the (unique, finite) sequence of answers of Next |
| C107 | cat.go, reader.go as in C73, C100 | as C106, with the number of bytes left of the current file |
| C108 | Model/Show.lean, GoJson.lean | soundness of the encoder and completeness of the parser against a grammar of JSON, by structural induction |
| C109 | Model/Show.lean | unambiguity of the JSON grammar |
| C110 | Model/Attrs.lean, GoJson.lean | exactness of the JSON parser (soundness and completeness), induction over the members |
| C111 | Model/LsText.lean, Model/NarLs.lean, GoJson.lean | exactness of the JSON parser, mutual induction over members for the decoder, uniqueness of the meaning |
| C112 | Narinfo.parse, NarInfo.string (Model/Narinfo.lean) | invariant of what the line loop has collected, then symbolic run of the parser over the printed lines; converse from the acceptance condition C50 |
| C113 | `GoUrl`, `Model/Store`, `Lemmas/GoUrl`, `Props/StoreUri` | length argument through url.Parse; unescape inverts escape |
| C114 | `GoUrl`, `Model/Store`, `Lemmas/UrlText`, `Props/StoreUri` | printing and parsing again, part by part |
| C115 | `Model/Heap`, `Props/Heap` | refinement of the value store, invariant over the program |
| C116 | `Model/Heap`, `Props/Heap` | refinement of the value writer, invariant: open headers are among those passed |
| C117 | `Spec/NarText`, `Model/NarDump`, `Props/NarText` | mutual induction: each token can be cut off from what follows |
| C118 | `Model/NarDump`, `Model/Nar`, `Model/Cmd`, `Props/Pipeline` | composition of C35, C23, C72, C73 |
| C119 | `Model/Narinfo`, `Model/Signature`, `Props/NarinfoTrust` | composition of C49, C54, C55; counting semicolons and splitting at commas for the fingerprint (C51_published) |
| C120 | `Model/Store`, `GoUrl`, `Props/Pipeline` | composition of C56, C57, C65, C67, C70, C90, C114 |
| C121 | Model/NarFrag.lean: Reader over a fragmented io.Reader (FReader, BytesReader) | simulation of the parser coroutine (SimStep), then the stream results (C23, C28) |
| C122 | Model/Nar (reader), Model/Cmd; two streams, one a prefix of the other | relational simulation of the two goroutines (Lemmas/NarPrefix: what succeeds on a prefix succeeds identically on the longer stream; Lemmas/NarPrefix2: what does not touch the end succeeds without it), combined with the content-read invariance of C28 |
| C123 | Model/NarDump, Model/NarWriter on a sink with a budget | simulation between the unlimited and the limited sink, compositional over the calls (Lemmas/NarWriterSink, Lemmas/NarDumpSink), tracking the number of bytes |
| C124 | Model/Scan: bufio.Scanner (reader, start, buffered data, error), io.ReadAll; Spec/Scan: what is seen before 101 empty reads | invariant relating buffered data plus what is still to come to the text left (Lemmas/Scan: Rest, ScanSpec), induction on the number of reads; then refinement of Parse's loop to the fold over the lines |
| C125 | Model/Out: the writing code again over an arbitrary writer (a state machine), bufio.Writer, the two commands | simulation between the generic and the unlimited sink, parametric in an invariant of the writer; instantiated with the invariant of bufio.Writer |
| C126 | narinfo, signature, nar.Reader and DumpPath as in C23, C35, C51, C54, C119 | C119_trust, C35_exact and C23_read_last combined |
| C127 | `Model/Out` with the scanner as the writer, `Model/References` | the boundaries between the strings of the format, their lengths and paddings cannot be inside a run of 32 base-32 characters; induction over the tree |
| C128 | `Model/Pool` (write.go:8-28, read.go:9-59 at single accesses to the buffers; sync.Pool as a set from which any element is delivered) | inductive invariant: held buffers are disjoint from each other and the pool, and what a call has read so far is in its own buffer |
| C129 | `Model/Sqlite` (QueryPathFromHashPart as the relation between database and possible answers) | order lemma: between a text and a continuation of it there are only continuations; invariants of C78 are not needed |
| C130 | `Model/NarConc` (as C96) | invariant WI of C96; sequential lemma on the phase of the writer |
| C131 | `Model/NarWriter` | invariant After, by induction on the calls; no step of the goroutine panics while there is a content writer (Calm, Sets) |
| C132 | `Model/NarDump`, `Model/NarConc` | induction on the tree: the dump amounts to a list of calls that return (Did); then C96 and C130 |
| C133 | `Model/Store`, `Model/Derivation`; `Spec/Modulo` | the recursive hash as an inductive relation, functional and stable under larger graphs; invariant of the table over the history; C88, C89 for one step |
| C134 | `Model/Handles.lean`: dump.go, FSStore.Get, HTTPStore.Get/Has with the number of open handles and a limit | mutual induction over the tree; induction over the number of calls |
| C135 | models of C23 and C35 | induction over the list, from C23_read_back_partial, C35_exact, C127_fold |
| C136 | `Spec/WireMsg.lean`: sequences of calls of the modelled functions | induction over the sequence |
| C137 | `Model/HashHeap.lean`: byte arrays in a heap, slices, NewHash, ParseAny, Format | induction over the steps of the program |
| C138 | `Model/Memory.lean`: ReadBytesFull and the reader's goroutine with a largest block and a largest number of nested calls | simulation between the two readers (same calls, same results); induction over the tree for the exact statement |
| C139 | `Model/Streams.lean`: the commands with two standard streams that are arbitrary io.Writers | induction over the loop of ls; C125 for the others |
| C140 | `Model/DrvJson.lean`: json.Unmarshal into Derivation (field matching, null, repeated keys, reused slices) | symbolic evaluation of the decoder on the encoded object; C57, C62, C65 for what follows |
| C141 | `Model/DrvJson.lean`: outputs as pointers that may be nil | case analysis; induction over the outputs |
| C142 | Model/Gonix.lean: openURI, drvStoreURIDecode, gonixDrvShow on top of Model/Store and Model/Show | composition of C69, C70, C90, C108, C113, C120 |
| C143 | Model/Nixbase32Mem.lean: the loops of Encode and Decode on one memory, every access by index | induction over the loops; refinement of the value model (C03, C05) |
| C144 | Model/NarDumpFs.lean: dumpPath with its system calls, on an arbitrary machine that answers them | simulation: the answers of a run make up a tree, on which the model of C35 does the same; induction over depth and lists of names |
| C145 | Model/Beside.lean: both functions with pairs of a pointer and an error as in Go | case analysis against the models with Res; C05_string for nixbase32 |
| C146 | Model.NarWriter, Model.Nar | the writer's state after each call as a tree with a hole (Ctx); the reader's run through such an unfinished archive by induction over it |
| C147 | Model.MapConc | accesses to Go maps with a beginning and an end; invariant over all schedules with an explicit linearization; race by construction of a schedule |
| C148 | Model.DrvMem | the parser over slices of a heap; refinement to the parser over values, invariant that every string lies in an array nobody else can name |
| C149 | Model/DrvJson.lean (`unmarshalDrv`), Spec/DrvText.lean (`DrvSays`) | case analysis member by member with an invariant (`Sofar`) that says what the members so far have said; functionality of the specification |
| C150 | Model/SqliteTx.lean: New, WithTx; database/sql + SQLite as a transition system (trusted) | invariant over all executions: view of each transaction = its calls replayed on a committed state; a writer began at the current committed state |
| C151 | Model/SqliteRows.lean: the generated :many and :one methods; sql.Rows/Row and the connection count (trusted) | induction over the rows |
| C152 | Model/NarDumpFilter.lean: dump.go:25-150 with the filter as part of the machine that answers the system calls; Spec/NarDumpFilter.lean: SeenAsked, visit, asked | reduction to the dump without a filter of a tree from which the rejected nodes are left out (mutual induction on the recursion), then C35_exact and C132_dump |
| C153 | Model/Derivation.lean (readDerivation, parseDerivation, arrayItems), Model/Store.lean (Get of the three stores) | The grammar of what the parser accepts (C99): a beginning that is split into seven items has the first six items of the file, and its seventh is a strict beginning of the environment; outside of strings the environment has a single closing square bracket, at its end, so that beginning is no array with entries; without environment Validate fails. |
| C154 | Model/Narinfo.lean (parse, string, fingerprint), Model/Signature.lean; Spec/NarinfoCut.lean: the order of the lines | The lines of a beginning are lines of the text, the last one a beginning of one; C50_result determines the fields from the lines; base64 texts of 64 bytes have no strict beginning that is such a text. |
| C155 | Model/Show.lean (showDrv), Model/DrvJson.lean (unmarshalDrv), GoJson.lean | The parser takes a value that is no number whatever follows it, so the rest of the longer text can only be white space; the printed text begins and ends with a brace. |
| C156 | Model/LsText.lean (parseLSText, decodeLS), Model/NarLs.lean, GoJson.lean | The decoder takes the first value that is no number whatever follows it; an object within a proper beginning of the object would leave a rest. |
| C157 | Model/Signature.lean, GoLib.lean (base64) | The size of the data determines the number of base64 characters without line breaks; so what is cut off has none of them. |
| C158 | Model/Nixhash.lean | Both texts are in the grammar of C102 with the same head; comparison of the lengths of the four algorithms; digits of the other encodings are base64 digits. |
| C159 | Model/Storepath.lean | From the exact acceptance conditions (C40, C41, C42); nixbase32 texts determine the digest. |
| C160 | Model/IntWidth.lean | Wrap-around is the identity on the range of int; otherwise the length of the result is wrong. |
| C161 | Model/NarinfoWidth.lean | Induction on the lines; the value of ParseUint is the value of the digits. |
| C162 | Model/LsWidth.lean, GoJson.lean | Induction on the members of the root object; the last version is the one that is used, and must be 1. |
| C163 | Model/Derivation.lean, Model/Store.lean | The calculated paths have the form of store paths (compress is 20 bytes, the name has the allowed characters); self-references are masked (C63); C67_put_iff for the store. |
| C164 | Model/Derivation.lean, Model/Store.lean | Induction on the derivations: the store is that of a history of Puts, and the program's replacements are those of the store; C163_put for the step. |
| C165 | Model/Nar.lean, Model/NarWriter.lean | The program as relations (Spec/CopyNar.lean), deterministic (C165_once); its calls are a session of the reader (C23, C25, C31) and one of the writer (C21, C22_exact). |
| C166 | Model/Nar.lean | Induction on the trees: the first path of the rest that is not below the current directory ends it (Props/NarSame.lean). |
| C167 | Model/Nar.lean, Model/NarWriter.lean | The copy is the NAR of a tree (C22), whose names and targets have the lengths that the reader guarantees (C25, C31), so C165 applies to it. |
| C168 | Model/Nar.lean, Model/NarWriter.lean | A session of the reader in which left-out entries are not read (C23), and one of the writer (C21), put together by induction over the entries. |
| C169 | Model/Nar.lean, Model/NarWriter.lean | Induction over the path and the tree: the paths of a part have the path as a component-wise prefix, all others have not; then C168. |
| C170 | Model/NarDump.lean, Model/Nar.lean, Model/NarWriter.lean | Induction over the tree: the entries that pass are those of the pruned tree of C35; then C168. |
| C171 | Model/Nar.lean, Model/NarWriter.lean | The calls are a session of the writer (C21), split at the archives, and one session of each reader (C23); the moved paths are those of the entries of the directory, by induction over the trees. |
| C172 | Model/Nar.lean, Model/NarDump.lean; the disk operations in Spec/Unpack.lean | The session of the reader by C23; then induction over the tree with a context (the disk around the place where the tree is made) that commutes with making something below. |
| C40-C44 | `Model/Storepath` + `GoPath` (`path.Clean/Join/Base`, `filepath.Rel`) | exact characterisation of `Validate`; witnesses for C40, C42, C43 |
| C45-C48, C74 | `Model/References` | fold over bytes, aligned-window specification |
| C49-C52 | `Model/Narinfo` | line level round trip; fingerprint injectivity; witness for C51 |
| C53-C55 | `Model/Signature`, ed25519 as parameter | base64 round trip |
| C56-C66, C83-C89 | `Model/Derivation` (writer, parser `arrayEach`, Validate, hashes, DrvPath), sha256 and json as parameters | induction over lists; permutation invariance via uniqueness of sorting; `Spec/DrvPaths` is the path algorithm of the Nix manual |
| C67-C71, C90 | `Model/Store` | invariants over histories |
| C72-C73, C92 | `Model/Cmd` | fold over header lists |
| C76-C78, C94, C95 | `Model/Sqlite` tables as lists of rows; semantics of the quoted SQL statements is trusted | refinement to maps; invariants over histories of statements |

No property is "not applicable"; the runtime parts that a model cannot exhibit (the Go memory model below the granularity said in `Conc.lean`, the OS file system, the network, SQLite and Badger themselves, the SHA-256 / ed25519 / JSON implementations) are parameters or small state machines.

Where an English property is false of the code, the theorem `Cxx_…refuted…` proves a counterexample, the property keeps its statement, its status is `partial`, and the strongest true version found is proved with the suffix `_partial` (or an exact characterisation, an "iff").

## Trusted base

* Lean 4.33.0 kernel. `AXIOMS.md` (generated by `tools/axioms.py`) lists the axioms of every claimed theorem: subsets of `propext`, `Classical.choice`, `Quot.sound`. No axioms are added, nothing is evaluated by compiled code; only core Lean is imported, not Mathlib.
* Faithfulness of the model to `/repo`: each definition cites the lines it models and says where it simplifies.
* The models of Go standard library functions in `GoLib.lean`, `GoMap.lean`, `GoPath.lean`, `GoRe.lean`, `GoJson.lean`, `GoUrl.lean`: `net/url` (Parse and String, Go 1.20), `encoding/hex`, `encoding/base64` (StdEncoding), `encoding/binary` little endian, `strings` (Split, Replacer, Cut, TrimSuffix ...), `strconv`, `path.Clean/Join/Base`, `filepath.Rel`, `sort`, maps, `io.ReadFull`, `io.CopyN`, `bufio.Scanner`, `unicode/utf8`; `bufio.Scanner`, `io.ReadAll` on fragmented readers (`Model/Scan.lean`), `bufio.Writer`, `io.Copy` (`Model/Out.lean`); `encoding/json` (strings, syntax with nesting limit, encoding with and without indentation, matching of field names; decoding into struct types is in `Model/Attrs.lean`, `Model/LsText.lean` and `Model/DrvJson.lean`).
* The semantics of Go's unbuffered channels, `select` and `close` (`Conc.lean`, 60 lines).
* The semantics of the SQL statements and of the schema (`Model/Sqlite.lean`, in the comments): insert or replace, on conflict, foreign keys with cascade / restrict, the trigger, NULL comparisons, AUTOINCREMENT.

## What is modelled

| package | modelled | not modelled |
|---|---|---|
| `pkg/nixbase32`, `pkg/nixhash` | all functions | texts of errors |
| `pkg/wire` | all functions; the buffer pool shared by goroutines (`Model/Pool`) | a `make` that fails for less than 2^63 bytes (the Go runtime panics from 2^48 on, on amd64) |
| `pkg/nar` | Reader, Writer (sequential and as goroutines), Header, path order, DumpPath/DumpPathFilter over an abstract file system (also one that changes, system call by system call) | Windows, but for `Mode` (`ToSlash` is the identity) |
| `pkg/nar/ls` | all functions, on bytes | texts of errors |
| `pkg/storepath`, `pkg/storepath/references` | all functions | |
| `pkg/narinfo`, `pkg/narinfo/signature` | all functions | ed25519 (parameter), random key generation (parameter) |
| `pkg/derivation` | all functions; the parser also with its aliased strings (`Model/DrvMem`) | SHA-256 (parameter); writers that modify the slices they are given (`unsafeBytes`) |
| `pkg/derivation/store` | MapStore (also with goroutines, `Model/MapConc`), BadgerStore (also with goroutines and crashes, `Model/StoreConc`), FSStore, HTTPStore, NewFromURI | Badger (a map with atomic transactions), HTTP transport, file system (parameters); `net/url` is modelled in `GoUrl` (trusted) |
| `pkg/sqlite` | every generated query of the four databases over the schema in `/repo` | SQLite itself, `database/sql`, connection errors |
| `cmd/gonix` | nar ls, nar cat and nar dump (also with failing standard streams, `Model/Out`, `Model/Streams`), drv show with its JSON output | kong (command line parsing) |

## Does the model compute what the code computes?

`Props/RepoTests.lean` and `Props/RepoTestsDrv.lean` transcribe the tables of the `*_test.go` files of `/repo` (base 32, hashes, store paths, references, NAR reader and writer, listings, wire, narinfo, signatures as text, derivation files with `DrvPath`, `Put` into MapStore and BadgerStore with the real SHA-256) and evaluate them in the kernel. They are tests of the model, not proofs of properties: no claim rests on them, and `tools/mutate.py` leaves them out, so that a seeded bug has to be caught by a theorem. Outside the build the same was done, by running the model, with the large files: all derivations, the JSON of `drv show` against `*.drv.json`, the net-tools NAR (read, `cat /bin/arp`, written back identically), `big.narinfo`. Not done: tests with Ed25519, a real file system, SQLite.

## Findings

Places where the code does not do what its comments, its tests or the Nix documentation suggest. Each is a theorem.

* nixbase32: `ValidateString("z")` fails to agree with `DecodeString` (C04); `Decode` writes beyond `DecodedLen` (C05).
* nixhash: base64 text of the right length with unusual padding or newlines gives a digest of the wrong size (C08).
* wire: `ReadBytesFull` ignores bad padding (C16); `BytesReader.Close` reports an error that came together with the last byte of a complete packet (C17, C19).
* nar.Reader: a node type of ")" is accepted as an empty node and an entry called ")" ends its directory, so that the entries after it are lost or, with nested ones, reported at other paths (C23, C30); truncated content gives io.EOF, so a truncated archive can look complete (C29, C93, and `nar cat`, C73); `Close` inside a directory does not stop the goroutine, which goes on reading the input and then blocks for ever (C32), and races with a later `Read` (C37).
* nar.Reader and nar.Writer together: an archive with a directory twice is copied without an error to one with an entry called `.` (C165); a stream with an entry called `)` can be copied without an error, and copying the copy loses entries without an error (C167).
* nar.Writer: names such as `..foo` are refused (C21, also `DumpPath`, C35); unclean paths, repeated directories and unknown types are accepted (C22); an unknown type makes the next call panic; after an error `WriteHeader` blocks and `Close` returns nil (C36).
* nar paths: the order check compares bytes, so `/a-b` may follow or precede `/a/b` wrongly (C33), and `nar ls` loses entries (C72); non-recursive `ls /a` lists `/ab` but not `/a/b`.
* nar header: `Mode()` never has ModeDir; symlinks are writable (C38). nar/ls: leaves are not checked, a null entry panics (C39); data after the listing is ignored, keys match in any case (C111).
* storepath: the separator is not checked (C40, C42), `FromAbsolutePath` ignores the first 11 bytes (C43); `FromString` accepts paths that lead through `..` to another store path or to a sibling of the store called `storeX…` (C103); `NameRe` has no anchors, and names that begin with a dot pass Validate but not PathRe (C104).
* references: occurrences that overlap a longer run of base-32 characters are missed (C47).
* narinfo: fingerprints of different narinfos coincide when a reference contains a comma, which `Check` allows via `/../` (C51), or, without `Check`, contains a space (C119); a parsed narinfo that is printed and parsed again loses carriage returns, is refused if it had several References lines, and printing panics without NarHash (C112).
* derivation: builder and platform are escaped when written but not unescaped when read (C61); arguments and other strings are written unescaped, so that two derivations have the same path (C86); `__json` with the value null panics (C85); an empty name passes Validate and then panics (C66); two inputs with the same replacement overwrite each other in map order (C58); the verdict of Validate depends on map order (C62).
* derivation: the name in structured attributes is matched in any case, `NAME` overrides `name` (C110); `gonix drv show` replaces bytes that are no UTF-8, so different derivations are shown alike, also with duplicate keys (C109); a derivation with structured attributes that was written as JSON and read back has lost its name, so that Validate refuses it and DrvPath panics (C140); `"out": null` is read as a nil output, on which Validate panics (C141).
* derivation.ReadDerivation also accepts texts that are no derivations for Nix (C99): the last item of an array is silently dropped if the text ends inside a string, any two bytes are an empty array, brackets of both kinds are interchangeable, outputs and environment variables may lack fields.
* store: BadgerStore loads the replacement of one input only and therefore refuses every ordinary derivation with two inputs (C68); `badger://` URIs ignore the path (C71); FSStore leaves its directory for "..", "" and "/" (C69); a plain path given to `NewFromURI` is parsed as a URL, so `/tmp/a?b` opens `/tmp/a` and `file://drvs` opens `/nix/store` (C113); the base URL `http://` makes the derivation name the host that is asked, `http:x` asks for the same URL for all derivations, and `%2F` in a base URL becomes a slash (C114); `MapStore.Get` hands out the pointer that was put, so a caller that modifies its derivation changes the store without a check (C115), and an accepted `Put` races with every other accepted call (C147).
* nar: `WriteHeader` keeps the pointer, so a program that reuses one `Header` struct is refused or, for directories, gets an archive with an entry `.` although every call succeeded (C116).
* nar: `DumpPath(w, "")` dumps the root of the file system, because `filepath.Join("", "/")` is `/` (C144_empty).
* `ReadDerivation` returns the refused derivation beside the error of `Validate`, and `ParseAny` a partly filled hash whose `String` may panic (C145).
* gonix: `nar ls` prints its lines with Go's builtin `print`, that is to standard error, and ignores the errors of doing so (C72, C139).
* sqlite: the constructors do not enable foreign keys, so that referenced paths can be invalidated (C78); rows with NULL names are never replaced nor found (C95).
* derivation: an empty but non-nil map of replacements means no replacement at all, so that `CalculateOutputPaths` with an empty map and input derivations hashes the paths of the inputs instead of reporting the missing replacements (encode.go:121; the condition of C88_fails_iff, C89_other that every input has a replacement).
* store: `FSStore.Get` follows symlinks, for which `Has` returns an error (C90_symlink), and never closes the file it opens (C134). Badger's own limits (keys of 65000 bytes, size of a transaction) are not modelled.
* sqlite: `QueryPathFromHashPart` relies on the order in which SQLite visits the rows (C129); `InsertAttribute` replaces an attribute with its context by one without (C95).
