import Verif.Model.References
import Verif.Model.NarWriter
import Verif.Model.LsText
import Verif.Model.Narinfo

/-!
# The unit tests of /repo, evaluated on the model

These are tests, not proofs of a property: the tables of the `*_test.go` files of `/repo`, transcribed and
evaluated by the kernel, to check that the model computes what the code is known to compute. Tests that need
SHA-256, Ed25519, a file system or the big files of `/repo/test/testdata` are not here (see DESIGN.md).
-/

namespace Verif.RepoTests
open Verif.GoLib Verif.Nixbase32 Verif.Nixhash Verif.Storepath Verif.References Verif.Narinfo Verif.Signature
open Verif.Nar Verif.NarLs Verif.Wire

/-- A call returned an error (and did not panic). -/
def fails {α : Type} : Res α → Bool
  | .err _ => true
  | _ => false

/-- `NewReferenceScanner`, `Write` for every chunk, `References` (refs_test.go:51-68). -/
def scanned (candidates chunks : List Bytes) : Res (List Bytes) :=
  (newReferenceScanner candidates).bind fun r =>
    let r' := chunks.foldl Scanner.write r
    .ok (r'.references (r'.hits.map (·.1)))

/-- A sequence of `wire.WriteString`s. -/
def wireStrings (l : List Bytes) : Bytes :=
  l.foldl (fun out s => (writeString s ⟨out, none⟩).2.out) []

/-- The calls on a new NAR reader of these bytes. -/
def calls (nar : Bytes) (ops : List ROp) : List ROut :=
  match newReader ⟨nar, .eof⟩ with
  | (.ok r, _) => (r.run ops).1
  | _ => []

/-- `Next` returned an error which is not `io.EOF`. -/
def isNextError : ROut → Bool
  | .next (.err e) => e != .eof
  | _ => false

/-- The calls on a new NAR writer: which succeeded, and what was written. -/
def written (ops : List WOp) : List Bool × Bytes :=
  match newWriter ⟨[], none⟩ with
  | (.ok w, _) => ((w.run ops).1.map WOut.good, (w.run ops).2.st.sink.out)
  | _ => ([], [])

/-- `NewBytesWriter`, `Write` for every chunk, `Close` (write_test.go:52-96). -/
def bytesWriter (n : Nat) (chunks : List Bytes) : Res (List (Nat × Option Err)) × Option Err × Bytes :=
  match newBytesWriter n ⟨[], none⟩ with
  | (.ok bw, s) =>
    let r := chunks.foldl (fun (x : List (Nat × Option Err) × BytesWriter × Sink) c =>
      let y := x.2.1.write c x.2.2
      (x.1 ++ [y.1], y.2.1, y.2.2)) ([], bw, s)
    (.ok r.1, (r.2.1.close r.2.2).1, (r.2.1.close r.2.2).2.2.out)
  | (_, _) => (.panic, none, [])

/-- Did the `Write` fail, did the `Close` (write_test.go:98-121). -/
def bytesWriterFails (n : Nat) (p : Bytes) : Bool × Bool :=
  match bytesWriter n [p] with
  | (.ok l, c, _) => (l.any fun x => x.2.isSome, c.isSome)
  | _ => (false, false)

/-- `mustParseAny` (narinfo_test.go:219-226). -/
def hashOf (s : Bytes) : Option HashWithEncoding :=
  match parseAny s none with
  | .ok h => some h
  | _ => none

/-- `mustLoadSig` (narinfo_test.go:366-373): the value, if there is no error. -/
def _root_.Verif.Res.toOption {α : Type} : Res α → Option α
  | .ok a => some a
  | _ => none

/-! ## pkg/nixbase32/nixbase32_test.go -/

-- TestEncode, TestEncodeToString, TestDecode, TestValidateString, TestEncodedLen, TestDecodedLen
example : (encodeToString [], decodeString b!"", Nixbase32.validateString b!"", encodedLen 0, decodedLen 0)
    = (b!"", .ok [], .ok (), 0, 0) := by decide +kernel

-- TestEncode, TestEncodeToString, TestDecode, TestValidateString, TestEncodedLen, TestDecodedLen
example : (encodeToString [0x1f], decodeString b!"0z", Nixbase32.validateString b!"0z", encodedLen 1, decodedLen 2)
    = (b!"0z", .ok [0x1f], .ok (), 2, 1) := by decide +kernel

-- TestEncode, TestEncodeToString, TestDecode, TestValidateString, TestEncodedLen, TestDecodedLen
example : (encodeToString [0xd8, 0x6b, 0x33, 0x92, 0xc1, 0x20, 0x2e, 0x8f, 0xf5, 0xa4, 0x23, 0xb3, 0x02, 0xe6, 0x28, 0x4d, 0xb7, 0xf8, 0xf4, 0x35, 0xea, 0x9f, 0x39, 0xb5, 0xb1, 0xb2, 0x0f, 0xd3, 0xac, 0x36, 0xdf, 0xcb], decodeString b!"1jyz6snd63xjn6skk7za6psgidsd53k05cr3lksqybi0q6936syq", Nixbase32.validateString b!"1jyz6snd63xjn6skk7za6psgidsd53k05cr3lksqybi0q6936syq", encodedLen 32, decodedLen 52)
    = (b!"1jyz6snd63xjn6skk7za6psgidsd53k05cr3lksqybi0q6936syq", .ok [0xd8, 0x6b, 0x33, 0x92, 0xc1, 0x20, 0x2e, 0x8f, 0xf5, 0xa4, 0x23, 0xb3, 0x02, 0xe6, 0x28, 0x4d, 0xb7, 0xf8, 0xf4, 0x35, 0xea, 0x9f, 0x39, 0xb5, 0xb1, 0xb2, 0x0f, 0xd3, 0xac, 0x36, 0xdf, 0xcb], .ok (), 52, 32) := by decide +kernel

-- invalidEncodings
example : fails (decodeString b!"0t") && fails (Nixbase32.validateString b!"0t") := by decide +kernel

-- invalidEncodings
example : fails (decodeString b!"zz") && fails (Nixbase32.validateString b!"zz") := by decide +kernel

-- invalidEncodings
example : fails (decodeString b!"c0") && fails (Nixbase32.validateString b!"c0") := by decide +kernel

/-! ## pkg/nixhash/hash_test.go, algo_test.go -/

-- TestDigest valid sha256
example : parseAny b!"sha256:1rjs6c23nyf8zkmf7yxglz2q2m7v5kp51nc2m0lk4h998d0qiixs" (some SHA256) = newHashWithEncoding SHA256 [0xba, 0xc7, 0x88, 0x41, 0x43, 0x29, 0x41, 0x32, 0x29, 0xa8, 0x82, 0xd9, 0x50, 0xee, 0x2c, 0xfb, 0x54, 0x81, 0xc5, 0xa7, 0xaf, 0xfb, 0xe3, 0xea, 0xfc, 0xc8, 0x79, 0x3b, 0x04, 0x33, 0x5a, 0xe6] NixBase32 true
    ∧ ((newHashWithEncoding SHA256 [0xba, 0xc7, 0x88, 0x41, 0x43, 0x29, 0x41, 0x32, 0x29, 0xa8, 0x82, 0xd9, 0x50, 0xee, 0x2c, 0xfb, 0x54, 0x81, 0xc5, 0xa7, 0xaf, 0xfb, 0xe3, 0xea, 0xfc, 0xc8, 0x79, 0x3b, 0x04, 0x33, 0x5a, 0xe6] NixBase32 true).bind (·.string)) = .ok b!"sha256:1rjs6c23nyf8zkmf7yxglz2q2m7v5kp51nc2m0lk4h998d0qiixs" := by decide +kernel

-- TestDigest valid sha512
example : parseAny b!"sha512:37iwwa5iw4m6pkd6qs2c5lw13q7y16hw2rv4i1cx6jax6yibhn6fgajbwc8p4j1fc6iicpy5r1vi7hpfq3n6z1ikhm5kcyz2b1frk80" (some SHA512) = newHashWithEncoding SHA512 [0x00, 0xcd, 0xec, 0xc2, 0x12, 0xdf, 0xb3, 0x59, 0x2a, 0x9c, 0x31, 0x7c, 0x63, 0x07, 0x76, 0x17, 0x9e, 0xb8, 0x43, 0x2e, 0xfe, 0xb2, 0x18, 0x0d, 0x73, 0x41, 0x92, 0x8b, 0x18, 0x5f, 0x52, 0x3d, 0x67, 0x2c, 0x5c, 0xd1, 0x9b, 0xae, 0xa4, 0xe9, 0x2c, 0x44, 0xb2, 0xb3, 0xe0, 0xd0, 0x04, 0x7f, 0xf0, 0x08, 0x9c, 0x16, 0x26, 0x34, 0x36, 0x6d, 0x5e, 0x53, 0x09, 0x8f, 0x45, 0x71, 0x1e, 0xcf] NixBase32 true
    ∧ ((newHashWithEncoding SHA512 [0x00, 0xcd, 0xec, 0xc2, 0x12, 0xdf, 0xb3, 0x59, 0x2a, 0x9c, 0x31, 0x7c, 0x63, 0x07, 0x76, 0x17, 0x9e, 0xb8, 0x43, 0x2e, 0xfe, 0xb2, 0x18, 0x0d, 0x73, 0x41, 0x92, 0x8b, 0x18, 0x5f, 0x52, 0x3d, 0x67, 0x2c, 0x5c, 0xd1, 0x9b, 0xae, 0xa4, 0xe9, 0x2c, 0x44, 0xb2, 0xb3, 0xe0, 0xd0, 0x04, 0x7f, 0xf0, 0x08, 0x9c, 0x16, 0x26, 0x34, 0x36, 0x6d, 0x5e, 0x53, 0x09, 0x8f, 0x45, 0x71, 0x1e, 0xcf] NixBase32 true).bind (·.string)) = .ok b!"sha512:37iwwa5iw4m6pkd6qs2c5lw13q7y16hw2rv4i1cx6jax6yibhn6fgajbwc8p4j1fc6iicpy5r1vi7hpfq3n6z1ikhm5kcyz2b1frk80" := by decide +kernel

-- TestDigest invalid base32
example : fails (parseAny b!"sha256:1rjs6c2tnyf8zkmf7yxglz2q2m7v5kp51nc2m0lk4h998d0qiixs" (some SHA256)) := by decide +kernel

-- TestDigest invalid digest length
example : fails (newHashWithEncoding SHA256 (List.replicate 31 0xba) NixBase32 true) := by decide +kernel

-- TestDigest invalid encoded digest length
example : fails (parseAny b!"sha256:37iwwa5iw4m6pkd6qs2c5lw13q7y16hw2rv4i1cx6jax6yibhn6fgajbwc8p4j1fc6iicpy5r1vi7hpfq3n6z1ikhm5kcyz2b1frk80" (some SHA256)) := by decide +kernel

-- TestAlgo
example : parseAlgorithm b!"md5" = .ok MD5 ∧ algoString MD5 = .ok b!"md5" := by decide +kernel

-- TestAlgo
example : parseAlgorithm b!"sha1" = .ok SHA1 ∧ algoString SHA1 = .ok b!"sha1" := by decide +kernel

-- TestAlgo
example : parseAlgorithm b!"sha256" = .ok SHA256 ∧ algoString SHA256 = .ok b!"sha256" := by decide +kernel

-- TestAlgo
example : parseAlgorithm b!"sha512" = .ok SHA512 ∧ algoString SHA512 = .ok b!"sha512" := by decide +kernel

-- TestAlgo
example : fails (parseAlgorithm b!"woot") ∧ algoString 0 = .panic := by decide +kernel

/-! ## pkg/storepath/storepath_test.go -/

-- FromString
example : fromString b!"00bgd045z0d4icpbc2yyz4gx48ak44la-net-tools-1.60_p20170221182432" = .ok (⟨b!"net-tools-1.60_p20170221182432", [0x8a, 0x12, 0x32, 0x15, 0x22, 0xfd, 0x91, 0xef, 0xbd, 0x60, 0xeb, 0xb2, 0x48, 0x1a, 0xf8, 0x85, 0x80, 0xf6, 0x16, 0x00]⟩ : StorePath) := by decide +kernel

-- FromAbsolutePath
example : fromAbsolutePath b!"/nix/store/00bgd045z0d4icpbc2yyz4gx48ak44la-net-tools-1.60_p20170221182432" = .ok (⟨b!"net-tools-1.60_p20170221182432", [0x8a, 0x12, 0x32, 0x15, 0x22, 0xfd, 0x91, 0xef, 0xbd, 0x60, 0xeb, 0xb2, 0x48, 0x1a, 0xf8, 0x85, 0x80, 0xf6, 0x16, 0x00]⟩ : StorePath) := by decide +kernel

-- String, Absolute
example : (⟨b!"net-tools-1.60_p20170221182432", [0x8a, 0x12, 0x32, 0x15, 0x22, 0xfd, 0x91, 0xef, 0xbd, 0x60, 0xeb, 0xb2, 0x48, 0x1a, 0xf8, 0x85, 0x80, 0xf6, 0x16, 0x00]⟩ : StorePath).string = b!"00bgd045z0d4icpbc2yyz4gx48ak44la-net-tools-1.60_p20170221182432" ∧ (⟨b!"net-tools-1.60_p20170221182432", [0x8a, 0x12, 0x32, 0x15, 0x22, 0xfd, 0x91, 0xef, 0xbd, 0x60, 0xeb, 0xb2, 0x48, 0x1a, 0xf8, 0x85, 0x80, 0xf6, 0x16, 0x00]⟩ : StorePath).absolute = b!"/nix/store/00bgd045z0d4icpbc2yyz4gx48ak44la-net-tools-1.60_p20170221182432" ∧ (⟨b!"net-tools-1.60_p20170221182432", [0x8a, 0x12, 0x32, 0x15, 0x22, 0xfd, 0x91, 0xef, 0xbd, 0x60, 0xeb, 0xb2, 0x48, 0x1a, 0xf8, 0x85, 0x80, 0xf6, 0x16, 0x00]⟩ : StorePath).validate = .ok () := by decide +kernel

-- invalid
example : fails (fromString b!"00bgd045z0d4icpbc2yy-net-tools-1.60_p20170221182432") ∧ fails (Storepath.validate b!"00bgd045z0d4icpbc2yy-net-tools-1.60_p20170221182432") := by decide +kernel

-- invalid
example : fails (fromString b!"00bgd045z0d4icpbc2yyz4gx48aku4la-net-tools-1.60_p20170221182432") ∧ fails (Storepath.validate b!"00bgd045z0d4icpbc2yyz4gx48aku4la-net-tools-1.60_p20170221182432") := by decide +kernel

-- invalid
example : fails (fromString b!"00bgd045z0d4icpbc2yyz4gx48aku4la-net-tools-1.60_p20170221182432/bin/arp") ∧ fails (Storepath.validate b!"00bgd045z0d4icpbc2yyz4gx48aku4la-net-tools-1.60_p20170221182432/bin/arp") := by decide +kernel

/-! ## pkg/storepath/references/refs_test.go -/

-- Basic
example : scanned [b!"/nix/store/knn6wc1a89c47yb70qwv56rmxylia6wx-hello-2.12"] [b!"/nix/store/knn6wc1a89c47yb70qwv56rmxylia6wx-hello-2.12/bin/hello"] = .ok [b!"/nix/store/knn6wc1a89c47yb70qwv56rmxylia6wx-hello-2.12"] := by decide +kernel

-- PartialWrites
example : scanned [b!"/nix/store/knn6wc1a89c47yb70qwv56rmxylia6wx-hello-2.12"] [b!"/nix/store/knn6wc1a89c47yb70", b!"qwv56rmxylia6wx-hello-2.12/bin/hello"] = .ok [b!"/nix/store/knn6wc1a89c47yb70qwv56rmxylia6wx-hello-2.12"] := by decide +kernel

-- IgnoredPaths
example : scanned [b!"/nix/store/knn6wc1a89c47yb70qwv56rmxylia6wx-hello-2.12"] [b!"/nix/store/knn6wc1a89c47yb70qwv56rmxylia6wx-hello-2.12/bin/hello", b!"/nix/store/c4pcgriqgiwz8vxrjxg7p38q3y7w3ni3-go-1.18.2/bin/go"] = .ok [b!"/nix/store/knn6wc1a89c47yb70qwv56rmxylia6wx-hello-2.12"] := by decide +kernel

/-! ## pkg/narinfo/splitonce_test.go, with the separator the parser uses -/

-- TestSplitOnce
example : splitOnce b!"hello: world" = .ok (b!"hello", b!"world") := by decide +kernel

-- TestSplitOnce
example : splitOnce b!": helloworld" = .ok (b!"", b!"helloworld") := by decide +kernel

-- TestSplitOnce
example : splitOnce b!"helloworld: " = .ok (b!"helloworld", b!"") := by decide +kernel

-- TestSplitOnce
example : fails (splitOnce b!"helloworld") := by decide +kernel

-- TestSplitOnce
example : fails (splitOnce b!"hello: wo: rld") := by decide +kernel

-- TestSplitOnce
example : fails (splitOnce b!"hello: : world") := by decide +kernel

/-! ## pkg/nar/util_test.go, header_test.go -/

-- TestLexicographicallyOrdered
example : pathIsLexicographicallyOrdered b!"/foo" b!"/foo" = true := by decide +kernel

-- TestLexicographicallyOrdered
example : pathIsLexicographicallyOrdered b!"/fooa" b!"/foob" = true := by decide +kernel

-- TestLexicographicallyOrdered
example : pathIsLexicographicallyOrdered b!"/foob" b!"/fooa" = false := by decide +kernel

-- TestLexicographicallyOrdered
example : pathIsLexicographicallyOrdered b!"/cmd/structlayout/main.go" b!"/cmd/structlayout-optimize" = true := by decide +kernel

-- TestLexicographicallyOrdered
example : pathIsLexicographicallyOrdered b!"/cmd/structlayout-optimize" b!"/cmd/structlayout-ao/main.go" = false := by decide +kernel

-- TestHeaderValidate valid
example : Header.validate ⟨b!"/foo/bar", typeRegular, b!"", 0, false⟩ = .ok () := by decide +kernel

-- TestHeaderValidate invalid path
example : fails (Header.validate ⟨b!"foo/bar", typeRegular, b!"", 0, false⟩) := by decide +kernel

-- TestHeaderValidate LinkTarget
example : fails (Header.validate ⟨b!"/foo/bar", typeRegular, b!"foo", 0, false⟩) := by decide +kernel

-- TestHeaderValidate LinkTarget
example : fails (Header.validate ⟨b!"/foo/bar", typeDirectory, b!"foo", 0, false⟩) := by decide +kernel

-- TestHeaderValidate Size
example : fails (Header.validate ⟨b!"/foo/bar", typeDirectory, b!"", 1, false⟩) := by decide +kernel

-- TestHeaderValidate Size
example : fails (Header.validate ⟨b!"/foo/bar", typeSymlink, b!"", 1, false⟩) := by decide +kernel

-- TestHeaderValidate Executable
example : fails (Header.validate ⟨b!"/foo/bar", typeDirectory, b!"", 0, true⟩) := by decide +kernel

-- TestHeaderValidate Executable
example : fails (Header.validate ⟨b!"/foo/bar", typeSymlink, b!"", 0, true⟩) := by decide +kernel

-- TestHeaderValidate No LinkTarget
example : fails (Header.validate ⟨b!"/foo/bar", typeSymlink, b!"", 0, false⟩) := by decide +kernel

-- TestHeaderValidate null byte
example : fails (Header.validate ⟨b!"/foo/bar" ++ [0] ++ b!"/", typeRegular, [], 0, false⟩) := by decide +kernel

/-! ## pkg/nar/reader_test.go -/

/-- `genEmptyNar` of fixtures_test.go: every string with `WriteString`. -/
def emptyNar : Bytes := wireStrings [b!"nix-archive-1"]

/-- `genEmptyDirectoryNar` of fixtures_test.go: every string with `WriteString`. -/
def emptyDirectoryNar : Bytes := wireStrings [b!"nix-archive-1", b!"(", b!"type", b!"directory", b!")"]

/-- `genOneByteRegularNar` of fixtures_test.go: every string with `WriteString`. -/
def oneByteRegularNar : Bytes := wireStrings [b!"nix-archive-1", b!"(", b!"type", b!"regular", b!"contents", [1], b!")"]

/-- `genSymlinkNar` of fixtures_test.go: every string with `WriteString`. -/
def symlinkNar : Bytes := wireStrings [b!"nix-archive-1", b!"(", b!"type", b!"symlink", b!"target", b!"/nix/store/somewhereelse", b!")"]

/-- `genInvalidOrderNar` of fixtures_test.go: every string with `WriteString`. -/
def invalidOrderNar : Bytes := wireStrings [b!"nix-archive-1", b!"(", b!"type", b!"directory", b!"entry", b!"(", b!"name", b!"b", b!"node", b!"(", b!"type", b!"directory", b!")", b!")", b!"entry", b!"(", b!"name", b!"a", b!"node", b!"(", b!"type", b!"directory", b!")", b!")", b!")"]

-- TestReaderEmpty
example : (calls emptyNar [.next]).map isNextError = [true] ∧ calls emptyNar [.next] ≠ [.next (.err .eof)] := by decide +kernel

-- TestReaderEmptyDirectory
example : calls emptyDirectoryNar [.next, .next, .close]
    = [.next (.ok ⟨b!"/", typeDirectory, b!"", 0, false⟩), .next (.err .eof), .close (.ok ())] := by decide +kernel

-- TestReaderOneByteRegular
example : calls oneByteRegularNar [.next, .read 512, .read 511, .next, .close]
    = [.next (.ok ⟨b!"/", typeRegular, b!"", 1, false⟩), .read (.ok [1]), .read (.err .eof), .next (.err .eof), .close (.ok ())] := by decide +kernel

-- TestReaderSymlink
example : calls symlinkNar [.next, .read 512, .next, .close]
    = [.next (.ok ⟨b!"/", typeSymlink, b!"/nix/store/somewhereelse", 0, false⟩), .read (.err .eof), .next (.err .eof), .close (.ok ())] := by decide +kernel

-- TestReaderInvalidOrder
example : (calls invalidOrderNar [.next, .next, .next]).take 2 = [.next (.ok ⟨b!"/", typeDirectory, b!"", 0, false⟩), .next (.ok ⟨b!"/b", typeDirectory, b!"", 0, false⟩)] := by decide +kernel

-- TestReaderInvalidOrder
example : ((calls invalidOrderNar [.next, .next, .next]).drop 2).map isNextError = [true] := by decide +kernel

-- TestReaderSmoketest: premature reading does no harm
example : (calls emptyDirectoryNar [.read 1000, .next]) = [.read (.err .eof), .next (.ok ⟨b!"/", typeDirectory, b!"", 0, false⟩)] := by decide +kernel

/-! ## pkg/nar/writer_test.go -/

-- TestWriterEmpty
example : (written [.close, .close]).1 = [false, false] := by decide +kernel

-- TestWriterEmptyDirectory
example : written [.header ⟨b!"/", typeDirectory, b!"", 0, false⟩, .close] = ([true, true], emptyDirectoryNar) := by decide +kernel

-- TestWriterOneByteRegular
example : written [.header ⟨b!"/", typeRegular, b!"", 1, false⟩, .write [1], .close] = ([true, true, true], oneByteRegularNar) := by decide +kernel

-- TestWriterSymlink
example : written [.header ⟨b!"/", typeSymlink, b!"/nix/store/somewhereelse", 0, false⟩, .close] = ([true, true], symlinkNar) := by decide +kernel

-- TestWriterErrorsTransitions missing directory in between
example : (written [.header ⟨b!"/", typeDirectory, b!"", 0, false⟩, .header ⟨b!"/a/foo", typeSymlink, b!"doesntmatter", 0, false⟩]).1 = [true, false] := by decide +kernel

-- TestWriterErrorsTransitions missing directory at the beginning, writing another directory
example : (written [.header ⟨b!"/a", typeDirectory, b!"", 0, false⟩]).1 = [false] := by decide +kernel

-- TestWriterErrorsTransitions missing directory at the beginning, writing a symlink
example : (written [.header ⟨b!"/a", typeSymlink, b!"foo", 0, false⟩]).1 = [false] := by decide +kernel

-- TestWriterErrorsTransitions transition via a symlink
example : (written [.header ⟨b!"/", typeDirectory, b!"", 0, false⟩, .header ⟨b!"/a", typeSymlink, b!"doesntmatter", 0, false⟩, .header ⟨b!"/a/b", typeSymlink, b!"doesntmatter", 0, false⟩]).1 = [true, true, false] := by decide +kernel

-- TestWriterErrorsTransitions not lexicographically sorted
example : (written [.header ⟨b!"/", typeDirectory, b!"", 0, false⟩, .header ⟨b!"/b", typeSymlink, b!"foo", 0, false⟩, .header ⟨b!"/a", typeSymlink, b!"foo", 0, false⟩]).1 = [true, true, false] := by decide +kernel

-- TestWriterErrorsTransitions the same
example : (written [.header ⟨b!"/", typeDirectory, b!"", 0, false⟩, .header ⟨b!"/a", typeSymlink, b!"foo", 0, false⟩, .header ⟨b!"/a", typeSymlink, b!"foo", 0, false⟩]).1 = [true, true, false] := by decide +kernel

-- TestWriterErrorsTransitions common prefix
example : (written [.header ⟨b!"/", typeDirectory, b!"", 0, false⟩, .header ⟨b!"/foo", typeDirectory, b!"", 0, false⟩, .header ⟨b!"/foo/b", typeSymlink, b!"foo", 0, false⟩, .header ⟨b!"/foo-a", typeSymlink, b!"foo", 0, false⟩]).1 = [true, true, true, true] := by decide +kernel

/-! ## pkg/nar/ls/list_test.go -/

-- TestLS
example : parseLSText id b!"\n{\n  \"version\": 1,\n  \"root\": {\n    \"type\": \"directory\",\n    \"entries\": {\n      \"bin\": {\n        \"type\": \"directory\",\n        \"entries\": {\n          \"curl\": {\n            \"type\": \"regular\",\n            \"size\": 182520,\n            \"executable\": true,\n            \"narOffset\": 400\n          }\n        }\n      }\n    }\n  }\n}\n"
    = .ok (1, .mk typeDirectory (.cons b!"bin" (.mk typeDirectory (.cons b!"curl" (.mk typeRegular .nil 182520 [] true 400) .nil) 0 [] false 0) .nil) 0 [] false 0) := by decide +kernel

/-! ## pkg/wire/read_test.go, write_test.go -/

-- TestReadUint64
example : (readUint64 ⟨[13, 0, 0, 0, 0, 0, 0, 0], .eof⟩).1 = .ok 13 := by decide +kernel

-- TestReadUint64Slow
example : (FReader.readUint64 ⟨[[13], [], [0, 0, 0, 0, 0, 0, 0]], .eof, false⟩).1 = .ok 13 := by decide +kernel

-- TestReadBool
example : (readBool ⟨[0, 0, 0, 0, 0, 0, 0, 0], .eof⟩).1 = .ok false ∧ (readBool ⟨[1, 0, 0, 0, 0, 0, 0, 0], .eof⟩).1 = .ok true
    ∧ fails (readBool ⟨[2, 0, 0, 0, 0, 0, 0, 0], .eof⟩).1 := by decide +kernel

-- TestReadBytes
example : (readBytesFull 1024 ⟨[8, 0, 0, 0, 0, 0, 0, 0, 42, 23, 42, 23, 42, 23, 42, 23], .eof⟩).1 = .ok [42, 23, 42, 23, 42, 23, 42, 23] := by decide +kernel

-- TestReadBytes
example : readBytesFull 1024 ⟨[10, 0, 0, 0, 0, 0, 0, 0, 42, 23, 42, 23, 42, 23, 42, 23, 42, 23, 0, 0, 0, 0, 0, 0] ++ [8, 0, 0, 0, 0, 0, 0, 0, 42, 23, 42, 23, 42, 23, 42, 23], .eof⟩ = (.ok [42, 23, 42, 23, 42, 23, 42, 23, 42, 23], ⟨[8, 0, 0, 0, 0, 0, 0, 0, 42, 23, 42, 23, 42, 23, 42, 23], .eof⟩) := by decide +kernel

-- TestReadString
example : (readString 1024 ⟨[3, 0, 0, 0, 0, 0, 0, 0, 0x46, 0x6F, 0x6F, 0, 0, 0, 0, 0], .eof⟩).1 = .ok b!"Foo" := by decide +kernel

-- TestReadString exceeding max: the rest stays
example : fails (readString 2 ⟨[3, 0, 0, 0, 0, 0, 0, 0, 0x46, 0x6F, 0x6F, 0, 0, 0, 0, 0], .eof⟩).1 ∧ (readString 2 ⟨[3, 0, 0, 0, 0, 0, 0, 0, 0x46, 0x6F, 0x6F, 0, 0, 0, 0, 0], .eof⟩).2.data = List.drop 8 [3, 0, 0, 0, 0, 0, 0, 0, 0x46, 0x6F, 0x6F, 0, 0, 0, 0, 0] := by decide +kernel

-- TestWriteUint64, TestWriteBool
example : writeUint64 1 ⟨[], none⟩ = (.ok (), ⟨[1, 0, 0, 0, 0, 0, 0, 0], none⟩) ∧ writeBool true ⟨[], none⟩ = (.ok (), ⟨[1, 0, 0, 0, 0, 0, 0, 0], none⟩)
    ∧ writeBool false ⟨[], none⟩ = (.ok (), ⟨[0, 0, 0, 0, 0, 0, 0, 0], none⟩) := by decide +kernel

-- TestWriteBytes
example : writeBytes [42, 23, 42, 23, 42, 23, 42, 23] ⟨[], none⟩ = (.ok (), ⟨[8, 0, 0, 0, 0, 0, 0, 0, 42, 23, 42, 23, 42, 23, 42, 23], none⟩) ∧ writeBytes [42, 23, 42, 23, 42, 23, 42, 23, 42, 23] ⟨[], none⟩ = (.ok (), ⟨[10, 0, 0, 0, 0, 0, 0, 0, 42, 23, 42, 23, 42, 23, 42, 23, 42, 23, 0, 0, 0, 0, 0, 0], none⟩) := by decide +kernel

-- TestWriteString
example : writeString b!"Foo" ⟨[], none⟩ = (.ok (), ⟨[3, 0, 0, 0, 0, 0, 0, 0, 0x46, 0x6F, 0x6F, 0, 0, 0, 0, 0], none⟩) := by decide +kernel

-- TestBytesWriter8Bytes
example : bytesWriter 8 [[42, 23, 42, 23], [42, 23, 42, 23]] = (.ok [(4, none), (4, none)], none, [8, 0, 0, 0, 0, 0, 0, 0, 42, 23, 42, 23, 42, 23, 42, 23]) := by decide +kernel

-- TestBytesWriter10Bytes
example : bytesWriter 10 [[42, 23, 42, 23], [42, 23, 42, 23, 42, 23]] = (.ok [(4, none), (6, none)], none, [10, 0, 0, 0, 0, 0, 0, 0, 42, 23, 42, 23, 42, 23, 42, 23, 42, 23, 0, 0, 0, 0, 0, 0]) := by decide +kernel

-- TestBytesWriterError, 9
example : bytesWriterFails 9 [42, 23, 42, 23, 42, 23, 42, 23, 42, 23] = (true, true) := by decide +kernel

-- TestBytesWriterError, 11
example : bytesWriterFails 11 [42, 23, 42, 23, 42, 23, 42, 23, 42, 23] = (false, true) := by decide +kernel

/-! ## pkg/narinfo/narinfo_test.go -/

/-- `strNarinfoSample` (narinfo_test.go:18-113). -/
def strNarinfoSample : Bytes := b!"\nStorePath: /nix/store/00bgd045z0d4icpbc2yyz4gx48ak44la-net-tools-1.60_p20170221182432\nURL: nar/1094wph9z4nwlgvsd53abfz8i117ykiv5dwnq9nnhz846s7xqd7d.nar.xz\nCompression: xz\nFileHash: sha256:1094wph9z4nwlgvsd53abfz8i117ykiv5dwnq9nnhz846s7xqd7d\nFileSize: 114980\nNarHash: sha256:0lxjvvpr59c2mdram7ympy5ay741f180kv3349hvfc3f8nrmbqf6\nNarSize: 464152\nReferences: 7gx4kiv5m0i7d7qkixq2cwzbr10lvxwc-glibc-2.27\nDeriver: 10dx1q4ivjb115y3h90mipaaz533nr0d-net-tools-1.60_p20170221182432.drv\nSig: cache.nixos.org-1:sn5s/RrqEI+YG6/PjwdbPjcAC7rcta7sJU4mFOawGvJBLsWkyLtBrT2EuFt/LJjWkTZ+ZWOI9NTtjo/woMdvAg==\nSig: hydra.other.net-1:JXQ3Z/PXf0EZSFkFioa4FbyYpbbTbHlFBtZf4VqU0tuMTWzhMD7p9Q7acJjLn3jofOtilAAwRILKIfVuyrbjAA==\n"

/-- `strNarinfoSampleWithBase16Hash` (narinfo_test.go:18-113). -/
def strNarinfoSampleWithBase16Hash : Bytes := b!"\nStorePath: /nix/store/00bgd045z0d4icpbc2yyz4gx48ak44la-net-tools-1.60_p20170221182432\nURL: nar/1094wph9z4nwlgvsd53abfz8i117ykiv5dwnq9nnhz846s7xqd7d.nar.xz\nCompression: xz\nFileHash: sha256:ed34dc8f36047d686dc296b7b2e3f4278488be5b6a94a6f7a3dc929fe0e52481\nFileSize: 114980\nNarHash: sha256:0lxjvvpr59c2mdram7ympy5ay741f180kv3349hvfc3f8nrmbqf6\nNarSize: 464152\nReferences: 7gx4kiv5m0i7d7qkixq2cwzbr10lvxwc-glibc-2.27\nDeriver: 10dx1q4ivjb115y3h90mipaaz533nr0d-net-tools-1.60_p20170221182432.drv\nSig: cache.nixos.org-1:sn5s/RrqEI+YG6/PjwdbPjcAC7rcta7sJU4mFOawGvJBLsWkyLtBrT2EuFt/LJjWkTZ+ZWOI9NTtjo/woMdvAg==\nSig: hydra.other.net-1:JXQ3Z/PXf0EZSFkFioa4FbyYpbbTbHlFBtZf4VqU0tuMTWzhMD7p9Q7acJjLn3jofOtilAAwRILKIfVuyrbjAA==\n"

/-- `strNarinfoSampleWithUnknownDeriver` (narinfo_test.go:18-113). -/
def strNarinfoSampleWithUnknownDeriver : Bytes := b!"\nStorePath: /nix/store/00bgd045z0d4icpbc2yyz4gx48ak44la-net-tools-1.60_p20170221182432\nURL: nar/1094wph9z4nwlgvsd53abfz8i117ykiv5dwnq9nnhz846s7xqd7d.nar.xz\nCompression: xz\nFileHash: sha256:1094wph9z4nwlgvsd53abfz8i117ykiv5dwnq9nnhz846s7xqd7d\nFileSize: 114980\nNarHash: sha256:0lxjvvpr59c2mdram7ympy5ay741f180kv3349hvfc3f8nrmbqf6\nNarSize: 464152\nReferences: 7gx4kiv5m0i7d7qkixq2cwzbr10lvxwc-glibc-2.27\nDeriver: unknown-deriver\nSig: cache.nixos.org-1:sn5s/RrqEI+YG6/PjwdbPjcAC7rcta7sJU4mFOawGvJBLsWkyLtBrT2EuFt/LJjWkTZ+ZWOI9NTtjo/woMdvAg==\nSig: hydra.other.net-1:JXQ3Z/PXf0EZSFkFioa4FbyYpbbTbHlFBtZf4VqU0tuMTWzhMD7p9Q7acJjLn3jofOtilAAwRILKIfVuyrbjAA==\n"

/-- `strNarinfoSampleWithoutFileFields` (narinfo_test.go:18-113). -/
def strNarinfoSampleWithoutFileFields : Bytes := b!"\nStorePath: /nix/store/00bgd045z0d4icpbc2yyz4gx48ak44la-net-tools-1.60_p20170221182432\nURL: nar/1094wph9z4nwlgvsd53abfz8i117ykiv5dwnq9nnhz846s7xqd7d.nar.xz\nCompression: xz\nNarHash: sha256:0lxjvvpr59c2mdram7ympy5ay741f180kv3349hvfc3f8nrmbqf6\nNarSize: 464152\nReferences: 7gx4kiv5m0i7d7qkixq2cwzbr10lvxwc-glibc-2.27\nDeriver: 10dx1q4ivjb115y3h90mipaaz533nr0d-net-tools-1.60_p20170221182432.drv\nSig: cache.nixos.org-1:sn5s/RrqEI+YG6/PjwdbPjcAC7rcta7sJU4mFOawGvJBLsWkyLtBrT2EuFt/LJjWkTZ+ZWOI9NTtjo/woMdvAg==\nSig: hydra.other.net-1:JXQ3Z/PXf0EZSFkFioa4FbyYpbbTbHlFBtZf4VqU0tuMTWzhMD7p9Q7acJjLn3jofOtilAAwRILKIfVuyrbjAA==\n"

/-- `strNarinfoSample2Multirefs` (narinfo_test.go:18-113). -/
def strNarinfoSample2Multirefs : Bytes := b!"\nStorePath: /nix/store/syd87l2rxw8cbsxmxl853h0r6pdwhwjr-curl-7.82.0-bin\nURL: nar/05ra3y72i3qjri7xskf9qj8kb29r6naqy1sqpbs3azi3xcigmj56.nar.xz\nCompression: xz\nFileHash: sha256:05ra3y72i3qjri7xskf9qj8kb29r6naqy1sqpbs3azi3xcigmj56\nFileSize: 68852\nNarHash: sha256:1b4sb93wp679q4zx9k1ignby1yna3z7c4c2ri3wphylbc2dwsys0\nNarSize: 196040\nReferences: 0jqd0rlxzra1rs38rdxl43yh6rxchgc6-curl-7.82.0 6w8g7njm4mck5dmjxws0z1xnrxvl81xa-glibc-2.34-115 j5jxw3iy7bbz4a57fh9g2xm2gxmyal8h-zlib-1.2.12 yxvjs9drzsphm9pcf42a4byzj1kb9m7k-openssl-1.1.1n\nDeriver: 5rwxzi7pal3qhpsyfc16gzkh939q1np6-curl-7.82.0.drv\nSig: cache.nixos.org-1:TsTTb3WGTZKphvYdBHXwo6weVILmTytUjLB+vcX89fOjjRicCHmKA4RCPMVLkj6TMJ4GMX3HPVWRdD1hkeKZBQ==\nSig: test1:519iiVLx/c4Rdt5DNt6Y2Jm6hcWE9+XY69ygiWSZCNGVcmOcyL64uVAJ3cV8vaTusIZdbTnYo9Y7vDNeTmmMBQ==\n"

/-- `strNarinfoSampleUncompressed` (narinfo_test.go:18-113). -/
def strNarinfoSampleUncompressed : Bytes := b!"\nStorePath: /nix/store/00bgd045z0d4icpbc2yyz4gx48ak44la-net-tools-1.60_p20170221182432\nURL: nar/1ib8z69vkb32pl89mn2y8djvrykxy9sk35pr166zxa9pqpc636jr.nar\nCompression: none\nFileHash: sha256:1ib8z69vkb32pl89mn2y8djvrykxy9sk35pr166zxa9pqpc636jr\nFileSize: 464152\nNarHash: sha256:1ib8z69vkb32pl89mn2y8djvrykxy9sk35pr166zxa9pqpc636jr\nNarSize: 464152\nReferences: 7gx4kiv5m0i7d7qkixq2cwzbr10lvxwc-glibc-2.27\nDeriver: 10dx1q4ivjb115y3h90mipaaz533nr0d-net-tools-1.60_p20170221182432.drv\nSig: cache.nixos.org-1:sn5s/RrqEI+YG6/PjwdbPjcAC7rcta7sJU4mFOawGvJBLsWkyLtBrT2EuFt/LJjWkTZ+ZWOI9NTtjo/woMdvAg==\nSig: hydra.other.net-1:JXQ3Z/PXf0EZSFkFioa4FbyYpbbTbHlFBtZf4VqU0tuMTWzhMD7p9Q7acJjLn3jofOtilAAwRILKIfVuyrbjAA==\n"

/-- `strNarinfoSampleUncompressedNoFileHashOrSize` (narinfo_test.go:18-113). -/
def strNarinfoSampleUncompressedNoFileHashOrSize : Bytes := b!"\nStorePath: /nix/store/00bgd045z0d4icpbc2yyz4gx48ak44la-net-tools-1.60_p20170221182432\nURL: nar/1ib8z69vkb32pl89mn2y8djvrykxy9sk35pr166zxa9pqpc636jr.nar\nCompression: none\nNarHash: sha256:1ib8z69vkb32pl89mn2y8djvrykxy9sk35pr166zxa9pqpc636jr\nNarSize: 464152\nReferences: 7gx4kiv5m0i7d7qkixq2cwzbr10lvxwc-glibc-2.27\nDeriver: 10dx1q4ivjb115y3h90mipaaz533nr0d-net-tools-1.60_p20170221182432.drv\nSig: cache.nixos.org-1:sn5s/RrqEI+YG6/PjwdbPjcAC7rcta7sJU4mFOawGvJBLsWkyLtBrT2EuFt/LJjWkTZ+ZWOI9NTtjo/woMdvAg==\nSig: hydra.other.net-1:JXQ3Z/PXf0EZSFkFioa4FbyYpbbTbHlFBtZf4VqU0tuMTWzhMD7p9Q7acJjLn3jofOtilAAwRILKIfVuyrbjAA==\n"

/-- `strNarinfoSampleWithoutDeriverFields` (narinfo_test.go:18-113). -/
def strNarinfoSampleWithoutDeriverFields : Bytes := b!"\nStorePath: /nix/store/00bgd045z0d4icpbc2yyz4gx48ak44la-net-tools-1.60_p20170221182432\nURL: nar/1094wph9z4nwlgvsd53abfz8i117ykiv5dwnq9nnhz846s7xqd7d.nar.xz\nCompression: xz\nFileHash: sha256:1094wph9z4nwlgvsd53abfz8i117ykiv5dwnq9nnhz846s7xqd7d\nFileSize: 114980\nNarHash: sha256:0lxjvvpr59c2mdram7ympy5ay741f180kv3349hvfc3f8nrmbqf6\nNarSize: 464152\nReferences: 7gx4kiv5m0i7d7qkixq2cwzbr10lvxwc-glibc-2.27\nSig: cache.nixos.org-1:sn5s/RrqEI+YG6/PjwdbPjcAC7rcta7sJU4mFOawGvJBLsWkyLtBrT2EuFt/LJjWkTZ+ZWOI9NTtjo/woMdvAg==\nSig: hydra.other.net-1:JXQ3Z/PXf0EZSFkFioa4FbyYpbbTbHlFBtZf4VqU0tuMTWzhMD7p9Q7acJjLn3jofOtilAAwRILKIfVuyrbjAA==\n"

/-- `_SignaturesNarinfoSample` (narinfo_test.go:117-122). -/
def sampleSigs : List Named :=
  [b!"cache.nixos.org-1:sn5s/RrqEI+YG6/PjwdbPjcAC7rcta7sJU4mFOawGvJBLsWkyLtBrT2EuFt/LJjWkTZ+ZWOI9NTtjo/woMdvAg==",
   b!"hydra.other.net-1:JXQ3Z/PXf0EZSFkFioa4FbyYpbbTbHlFBtZf4VqU0tuMTWzhMD7p9Q7acJjLn3jofOtilAAwRILKIfVuyrbjAA=="].filterMap
    fun s => (parseSignature s).toOption

-- mustLoadSig
example : sampleSigs.length = 2 := by decide +kernel

-- TestNarInfo: Parse
example : Narinfo.parse ⟨strNarinfoSample, .eof⟩ = .ok ⟨b!"/nix/store/00bgd045z0d4icpbc2yyz4gx48ak44la-net-tools-1.60_p20170221182432", b!"nar/1094wph9z4nwlgvsd53abfz8i117ykiv5dwnq9nnhz846s7xqd7d.nar.xz", b!"xz", hashOf b!"sha256:1094wph9z4nwlgvsd53abfz8i117ykiv5dwnq9nnhz846s7xqd7d", 114980, hashOf b!"sha256:0lxjvvpr59c2mdram7ympy5ay741f180kv3349hvfc3f8nrmbqf6", 464152,
    [b!"7gx4kiv5m0i7d7qkixq2cwzbr10lvxwc-glibc-2.27"], b!"10dx1q4ivjb115y3h90mipaaz533nr0d-net-tools-1.60_p20170221182432.drv", [], sampleSigs, []⟩ := by decide +kernel

-- TestNarInfo: Check, String
example : ((Narinfo.parse ⟨strNarinfoSample, .eof⟩).bind (·.check)) = .ok ()
    ∧ ((Narinfo.parse ⟨strNarinfoSample, .eof⟩).bind (·.string)) = .ok (strNarinfoSample.drop 1) := by decide +kernel

-- TestNarInfoWithBase16Hash: Parse
example : Narinfo.parse ⟨strNarinfoSampleWithBase16Hash, .eof⟩ = .ok ⟨b!"/nix/store/00bgd045z0d4icpbc2yyz4gx48ak44la-net-tools-1.60_p20170221182432", b!"nar/1094wph9z4nwlgvsd53abfz8i117ykiv5dwnq9nnhz846s7xqd7d.nar.xz", b!"xz", hashOf b!"sha256:ed34dc8f36047d686dc296b7b2e3f4278488be5b6a94a6f7a3dc929fe0e52481", 114980, hashOf b!"sha256:0lxjvvpr59c2mdram7ympy5ay741f180kv3349hvfc3f8nrmbqf6", 464152,
    [b!"7gx4kiv5m0i7d7qkixq2cwzbr10lvxwc-glibc-2.27"], b!"10dx1q4ivjb115y3h90mipaaz533nr0d-net-tools-1.60_p20170221182432.drv", [], sampleSigs, []⟩ := by decide +kernel

-- TestNarInfoWithBase16Hash: Check, String
example : ((Narinfo.parse ⟨strNarinfoSampleWithBase16Hash, .eof⟩).bind (·.check)) = .ok ()
    ∧ ((Narinfo.parse ⟨strNarinfoSampleWithBase16Hash, .eof⟩).bind (·.string)) = .ok (strNarinfoSampleWithBase16Hash.drop 1) := by decide +kernel

-- TestNarInfoWithUnknownDeriver: Parse
example : Narinfo.parse ⟨strNarinfoSampleWithUnknownDeriver, .eof⟩ = .ok ⟨b!"/nix/store/00bgd045z0d4icpbc2yyz4gx48ak44la-net-tools-1.60_p20170221182432", b!"nar/1094wph9z4nwlgvsd53abfz8i117ykiv5dwnq9nnhz846s7xqd7d.nar.xz", b!"xz", hashOf b!"sha256:1094wph9z4nwlgvsd53abfz8i117ykiv5dwnq9nnhz846s7xqd7d", 114980, hashOf b!"sha256:0lxjvvpr59c2mdram7ympy5ay741f180kv3349hvfc3f8nrmbqf6", 464152,
    [b!"7gx4kiv5m0i7d7qkixq2cwzbr10lvxwc-glibc-2.27"], b!"", [], sampleSigs, []⟩ := by decide +kernel

-- TestNarInfoWithUnknownDeriver: Check, String
example : ((Narinfo.parse ⟨strNarinfoSampleWithUnknownDeriver, .eof⟩).bind (·.check)) = .ok ()
    ∧ ((Narinfo.parse ⟨strNarinfoSampleWithUnknownDeriver, .eof⟩).bind (·.string)) = .ok (strNarinfoSampleWithoutDeriverFields.drop 1) := by decide +kernel

-- TestNarInfoUncompressed: Parse
example : Narinfo.parse ⟨strNarinfoSampleUncompressed, .eof⟩ = .ok ⟨b!"/nix/store/00bgd045z0d4icpbc2yyz4gx48ak44la-net-tools-1.60_p20170221182432", b!"nar/1ib8z69vkb32pl89mn2y8djvrykxy9sk35pr166zxa9pqpc636jr.nar", b!"none", hashOf b!"sha256:1ib8z69vkb32pl89mn2y8djvrykxy9sk35pr166zxa9pqpc636jr", 464152, hashOf b!"sha256:1ib8z69vkb32pl89mn2y8djvrykxy9sk35pr166zxa9pqpc636jr", 464152,
    [b!"7gx4kiv5m0i7d7qkixq2cwzbr10lvxwc-glibc-2.27"], b!"10dx1q4ivjb115y3h90mipaaz533nr0d-net-tools-1.60_p20170221182432.drv", [], sampleSigs, []⟩ := by decide +kernel

-- TestNarInfoUncompressed: Check, String
example : ((Narinfo.parse ⟨strNarinfoSampleUncompressed, .eof⟩).bind (·.check)) = .ok ()
    ∧ ((Narinfo.parse ⟨strNarinfoSampleUncompressed, .eof⟩).bind (·.string)) = .ok (strNarinfoSampleUncompressed.drop 1) := by decide +kernel

-- TestNarInfoUncompressedNoFileHashOrSize: Parse
example : Narinfo.parse ⟨strNarinfoSampleUncompressedNoFileHashOrSize, .eof⟩ = .ok ⟨b!"/nix/store/00bgd045z0d4icpbc2yyz4gx48ak44la-net-tools-1.60_p20170221182432", b!"nar/1ib8z69vkb32pl89mn2y8djvrykxy9sk35pr166zxa9pqpc636jr.nar", b!"none", none, 0, hashOf b!"sha256:1ib8z69vkb32pl89mn2y8djvrykxy9sk35pr166zxa9pqpc636jr", 464152,
    [b!"7gx4kiv5m0i7d7qkixq2cwzbr10lvxwc-glibc-2.27"], b!"10dx1q4ivjb115y3h90mipaaz533nr0d-net-tools-1.60_p20170221182432.drv", [], sampleSigs, []⟩ := by decide +kernel

-- TestNarInfoUncompressedNoFileHashOrSize: Check, String
example : ((Narinfo.parse ⟨strNarinfoSampleUncompressedNoFileHashOrSize, .eof⟩).bind (·.check)) = .ok ()
    ∧ ((Narinfo.parse ⟨strNarinfoSampleUncompressedNoFileHashOrSize, .eof⟩).bind (·.string)) = .ok (strNarinfoSampleUncompressedNoFileHashOrSize.drop 1) := by decide +kernel

-- TestNarInfoWithoutFileFields: Parse
example : Narinfo.parse ⟨strNarinfoSampleWithoutFileFields, .eof⟩ = .ok ⟨b!"/nix/store/00bgd045z0d4icpbc2yyz4gx48ak44la-net-tools-1.60_p20170221182432", b!"nar/1094wph9z4nwlgvsd53abfz8i117ykiv5dwnq9nnhz846s7xqd7d.nar.xz", b!"xz", none, 0, hashOf b!"sha256:0lxjvvpr59c2mdram7ympy5ay741f180kv3349hvfc3f8nrmbqf6", 464152,
    [b!"7gx4kiv5m0i7d7qkixq2cwzbr10lvxwc-glibc-2.27"], b!"10dx1q4ivjb115y3h90mipaaz533nr0d-net-tools-1.60_p20170221182432.drv", [], sampleSigs, []⟩ := by decide +kernel

-- TestNarInfoWithoutFileFields: Check, String
example : ((Narinfo.parse ⟨strNarinfoSampleWithoutFileFields, .eof⟩).bind (·.check)) = .ok ()
    ∧ ((Narinfo.parse ⟨strNarinfoSampleWithoutFileFields, .eof⟩).bind (·.string)) = .ok (strNarinfoSampleWithoutFileFields.drop 1) := by decide +kernel

-- TestNarInfoWithoutDeriverFields: Parse
example : Narinfo.parse ⟨strNarinfoSampleWithoutDeriverFields, .eof⟩ = .ok ⟨b!"/nix/store/00bgd045z0d4icpbc2yyz4gx48ak44la-net-tools-1.60_p20170221182432", b!"nar/1094wph9z4nwlgvsd53abfz8i117ykiv5dwnq9nnhz846s7xqd7d.nar.xz", b!"xz", hashOf b!"sha256:1094wph9z4nwlgvsd53abfz8i117ykiv5dwnq9nnhz846s7xqd7d", 114980, hashOf b!"sha256:0lxjvvpr59c2mdram7ympy5ay741f180kv3349hvfc3f8nrmbqf6", 464152,
    [b!"7gx4kiv5m0i7d7qkixq2cwzbr10lvxwc-glibc-2.27"], b!"", [], sampleSigs, []⟩ := by decide +kernel

-- TestNarInfoWithoutDeriverFields: Check, String
example : ((Narinfo.parse ⟨strNarinfoSampleWithoutDeriverFields, .eof⟩).bind (·.check)) = .ok ()
    ∧ ((Narinfo.parse ⟨strNarinfoSampleWithoutDeriverFields, .eof⟩).bind (·.string)) = .ok (strNarinfoSampleWithoutDeriverFields.drop 1) := by decide +kernel

-- TestFingerprint
example : ((Narinfo.parse ⟨strNarinfoSample2Multirefs, .eof⟩).bind (·.fingerprint)) = .ok b!"1;/nix/store/syd87l2rxw8cbsxmxl853h0r6pdwhwjr-curl-7.82.0-bin;sha256:1b4sb93wp679q4zx9k1ignby1yna3z7c4c2ri3wphylbc2dwsys0;196040;/nix/store/0jqd0rlxzra1rs38rdxl43yh6rxchgc6-curl-7.82.0,/nix/store/6w8g7njm4mck5dmjxws0z1xnrxvl81xa-glibc-2.34-115,/nix/store/j5jxw3iy7bbz4a57fh9g2xm2gxmyal8h-zlib-1.2.12,/nix/store/yxvjs9drzsphm9pcf42a4byzj1kb9m7k-openssl-1.1.1n" := by decide +kernel

/-! ## pkg/narinfo/signature/signature_test.go -/

-- TestPublicKeyLoad, TestSecretKeyLoad, TestSignature
example : ((Signature.decode b!"cache.nixos.org-1:6NCHdD59X431o0gWypbMrAURkbJ16ZPMQFGspcDShjY=" 32).bind fun x => Res.ok (Signature.encode x)) = .ok b!"cache.nixos.org-1:6NCHdD59X431o0gWypbMrAURkbJ16ZPMQFGspcDShjY=" := by decide +kernel

-- TestPublicKeyLoad, TestSecretKeyLoad, TestSignature
example : ((Signature.decode b!"test1:tLAEn+EeaBUJYqEpTd2yeerr7Ic6+0vWe+aXL/vYUpE=" 32).bind fun x => Res.ok (Signature.encode x)) = .ok b!"test1:tLAEn+EeaBUJYqEpTd2yeerr7Ic6+0vWe+aXL/vYUpE=" := by decide +kernel

-- TestPublicKeyLoad, TestSecretKeyLoad, TestSignature
example : ((Signature.decode b!"test1:jbX9NxZp8WB/coK8k7yLf0gNYmBbIbCrOFwgJgI7OV+0sASf4R5oFQlioSlN3bJ56uvshzr7S9Z75pcv+9hSkQ==" 64).bind fun x => Res.ok (Signature.encode x)) = .ok b!"test1:jbX9NxZp8WB/coK8k7yLf0gNYmBbIbCrOFwgJgI7OV+0sASf4R5oFQlioSlN3bJ56uvshzr7S9Z75pcv+9hSkQ==" := by decide +kernel

-- TestPublicKeyLoad, TestSecretKeyLoad, TestSignature
example : ((Signature.decode b!"test1:519iiVLx/c4Rdt5DNt6Y2Jm6hcWE9+XY69ygiWSZCNGVcmOcyL64uVAJ3cV8vaTusIZdbTnYo9Y7vDNeTmmMBQ==" 64).bind fun x => Res.ok (Signature.encode x)) = .ok b!"test1:519iiVLx/c4Rdt5DNt6Y2Jm6hcWE9+XY69ygiWSZCNGVcmOcyL64uVAJ3cV8vaTusIZdbTnYo9Y7vDNeTmmMBQ==" := by decide +kernel

-- TestSecretKeyLoad: ToPublicKey
example : ((Signature.decode b!"test1:jbX9NxZp8WB/coK8k7yLf0gNYmBbIbCrOFwgJgI7OV+0sASf4R5oFQlioSlN3bJ56uvshzr7S9Z75pcv+9hSkQ==" 64).bind toPublicKey)
    = Signature.decode b!"test1:tLAEn+EeaBUJYqEpTd2yeerr7Ic6+0vWe+aXL/vYUpE=" 32 := by decide +kernel

end Verif.RepoTests
