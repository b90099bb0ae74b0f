import Verif.Model.Store
import Verif.Model.Attrs

/-!
# The derivation and store tests of /repo, evaluated on the model with the real SHA-256

As in RepoTests these are tests, not proofs of a property. `sha256` is a parameter of the model; here it is instantiated
with FIPS 180-4, written over `Nat` so that the kernel evaluates it.
-/

namespace Verif.RepoTests.Sha256
/-- 2^32 -/
def M32 : Nat := 4294967296
/-- Round constants (FIPS 180-4, 4.2.2). -/
def K : List Nat := [0x428a2f98,0x71374491,0xb5c0fbcf,0xe9b5dba5,0x3956c25b,0x59f111f1,0x923f82a4,0xab1c5ed5,0xd807aa98,0x12835b01,0x243185be,0x550c7dc3,0x72be5d74,0x80deb1fe,0x9bdc06a7,0xc19bf174,0xe49b69c1,0xefbe4786,0x0fc19dc6,0x240ca1cc,0x2de92c6f,0x4a7484aa,0x5cb0a9dc,0x76f988da,0x983e5152,0xa831c66d,0xb00327c8,0xbf597fc7,0xc6e00bf3,0xd5a79147,0x06ca6351,0x14292967,0x27b70a85,0x2e1b2138,0x4d2c6dfc,0x53380d13,0x650a7354,0x766a0abb,0x81c2c92e,0x92722c85,0xa2bfe8a1,0xa81a664b,0xc24b8b70,0xc76c51a3,0xd192e819,0xd6990624,0xf40e3585,0x106aa070,0x19a4c116,0x1e376c08,0x2748774c,0x34b0bcb5,0x391c0cb3,0x4ed8aa4a,0x5b9cca4f,0x682e6ff3,0x748f82ee,0x78a5636f,0x84c87814,0x8cc70208,0x90befffa,0xa4506ceb,0xbef9a3f7,0xc67178f2]
/-- Rotation to the right of a 32 bit word. -/
def rotr (x n : Nat) : Nat := Nat.lor (Nat.shiftRight x n) (Nat.mod (Nat.shiftLeft x (32 - n)) M32)
/-- Complement. -/
def not32 (x : Nat) : Nat := M32 - 1 - x

/-- The eight working variables. -/
structure S where
  a : Nat
  b : Nat
  c : Nat
  d : Nat
  e : Nat
  f : Nat
  g : Nat
  h : Nat

/-- One round (FIPS 180-4, 6.2.2 step 3). -/
def round (s : S) (k w : Nat) : S :=
  let t1 := s.h + (rotr s.e 6 ^^^ rotr s.e 11 ^^^ rotr s.e 25) + ((s.e &&& s.f) ^^^ (not32 s.e &&& s.g)) + k + w
  let t2 := (rotr s.a 2 ^^^ rotr s.a 13 ^^^ rotr s.a 22) + ((s.a &&& s.b) ^^^ (s.a &&& s.c) ^^^ (s.b &&& s.c))
  ⟨(t1 + t2) % M32, s.a, s.b, s.c, (s.d + t1) % M32, s.e, s.f, s.g⟩

/-- The rounds with the message schedule; `w` holds the last 16 words, oldest first. -/
def rounds : S → List Nat → List Nat → S
  | s, _, [] => s
  | s, w, k :: ks =>
    let w0 := w.headD 0
    let w1 := w.getD 1 0
    let w14 := w.getD 14 0
    let nw := (w0 + (rotr w1 7 ^^^ rotr w1 18 ^^^ (w1 >>> 3)) + w.getD 9 0 + (rotr w14 17 ^^^ rotr w14 19 ^^^ (w14 >>> 10))) % M32
    rounds (round s k w0) (w.tail ++ [nw]) ks

/-- Big-endian 32 bit words. -/
def wordsOf : List UInt8 → List Nat
  | a :: b :: c :: d :: l => (((a.toNat * 256 + b.toNat) * 256 + c.toNat) * 256 + d.toNat) :: wordsOf l
  | _ => []

/-- Addition of the working variables (step 4). -/
def add (s t : S) : S := ⟨(s.a+t.a)%M32,(s.b+t.b)%M32,(s.c+t.c)%M32,(s.d+t.d)%M32,(s.e+t.e)%M32,(s.f+t.f)%M32,(s.g+t.g)%M32,(s.h+t.h)%M32⟩
/-- All blocks. -/
def blocks : Nat → S → List Nat → S
  | 0, s, _ => s
  | n+1, s, w => blocks n (add s (rounds s (w.take 16) K)) (w.drop 16)
/-- `k` bytes, big-endian. -/
def be (n k : Nat) : List UInt8 := (List.range k).map fun i => UInt8.ofNat (n / 256 ^ (k - 1 - i))
/-- SHA-256. -/
def sha256 (m : List UInt8) : List UInt8 :=
  let p := m ++ [0x80] ++ List.replicate ((119 - m.length % 64) % 64) 0 ++ be (m.length * 8) 8
  let s := blocks (p.length / 64) ⟨0x6a09e667,0xbb67ae85,0x3c6ef372,0xa54ff53a,0x510e527f,0x9b05688c,0x1f83d9ab,0x5be0cd19⟩ (wordsOf p)
  [s.a,s.b,s.c,s.d,s.e,s.f,s.g,s.h].flatMap fun x => be x 4
end Verif.RepoTests.Sha256

namespace Verif.RepoTests
open Verif.GoLib Verif.Derivation Verif.Store Verif.Wire Verif.RepoTests.Sha256

/-- `ReadDerivation`, then `WriteDerivation` and `DrvPath`. -/
def roundTrip (file : Bytes) : Res (Bytes × Bytes) :=
  (readDerivation jsonName ⟨file, .eof⟩).bind fun d =>
    (drvPath sha256 d).bind fun p => .ok ((d.write ⟨[], none⟩).2.out, p)

/-- `/repo/test/testdata/0hm2f1psjpcwg8fijsmr4wwxrx59s092-bar.drv` -/
def drv_0hm2f1psjpcwg8fijsmr4wwxrx59s092 : Bytes := b!"Derive([(\"out\",\"/nix/store/4q0pg5zpfmznxscq3avycvf9xdvx50n3-bar\",\"r:sha256\",\"08813cbee9903c62be4c5027726a418a300da4500b2d369d3af9286f4815ceba\")],[],[],\":\",\":\",[],[(\"builder\",\":\"),(\"name\",\"bar\"),(\"out\",\"/nix/store/4q0pg5zpfmznxscq3avycvf9xdvx50n3-bar\"),(\"outputHash\",\"08813cbee9903c62be4c5027726a418a300da4500b2d369d3af9286f4815ceba\"),(\"outputHashAlgo\",\"sha256\"),(\"outputHashMode\",\"recursive\"),(\"system\",\":\")])"

-- TestWriter, TestDrvPath (derivation_test.go:206-247, 421-440)
example : roundTrip drv_0hm2f1psjpcwg8fijsmr4wwxrx59s092 = .ok (drv_0hm2f1psjpcwg8fijsmr4wwxrx59s092, b!"/nix/store/0hm2f1psjpcwg8fijsmr4wwxrx59s092-bar.drv") := by decide +kernel

/-- `/repo/test/testdata/ss2p4wmxijn652haqyd7dckxwl4c7hxx-bar.drv` -/
def drv_ss2p4wmxijn652haqyd7dckxwl4c7hxx : Bytes := b!"Derive([(\"out\",\"/nix/store/mp57d33657rf34lzvlbpfa1gjfv5gmpg-bar\",\"r:sha1\",\"0beec7b5ea3f0fdbc95d0dd47f3c5bc275da8a33\")],[],[],\":\",\":\",[],[(\"builder\",\":\"),(\"name\",\"bar\"),(\"out\",\"/nix/store/mp57d33657rf34lzvlbpfa1gjfv5gmpg-bar\"),(\"outputHash\",\"0beec7b5ea3f0fdbc95d0dd47f3c5bc275da8a33\"),(\"outputHashAlgo\",\"sha1\"),(\"outputHashMode\",\"recursive\"),(\"system\",\":\")])"

-- TestWriter, TestDrvPath (derivation_test.go:206-247, 421-440)
example : roundTrip drv_ss2p4wmxijn652haqyd7dckxwl4c7hxx = .ok (drv_ss2p4wmxijn652haqyd7dckxwl4c7hxx, b!"/nix/store/ss2p4wmxijn652haqyd7dckxwl4c7hxx-bar.drv") := by decide +kernel

/-- `/repo/test/testdata/4wvvbi4jwn0prsdxb7vs673qa5h9gr7x-foo.drv` -/
def drv_4wvvbi4jwn0prsdxb7vs673qa5h9gr7x : Bytes := b!"Derive([(\"out\",\"/nix/store/5vyvcwah9l9kf07d52rcgdk70g2f4y13-foo\",\"\",\"\")],[(\"/nix/store/0hm2f1psjpcwg8fijsmr4wwxrx59s092-bar.drv\",[\"out\"])],[],\":\",\":\",[],[(\"bar\",\"/nix/store/4q0pg5zpfmznxscq3avycvf9xdvx50n3-bar\"),(\"builder\",\":\"),(\"name\",\"foo\"),(\"out\",\"/nix/store/5vyvcwah9l9kf07d52rcgdk70g2f4y13-foo\"),(\"system\",\":\")])"

-- TestWriter, TestDrvPath (derivation_test.go:206-247, 421-440)
example : roundTrip drv_4wvvbi4jwn0prsdxb7vs673qa5h9gr7x = .ok (drv_4wvvbi4jwn0prsdxb7vs673qa5h9gr7x, b!"/nix/store/4wvvbi4jwn0prsdxb7vs673qa5h9gr7x-foo.drv") := by decide +kernel

/-- `/repo/test/testdata/ch49594n9avinrf8ip0aslidkc4lxkqv-foo.drv` -/
def drv_ch49594n9avinrf8ip0aslidkc4lxkqv : Bytes := b!"Derive([(\"out\",\"/nix/store/fhaj6gmwns62s6ypkcldbaj2ybvkhx3p-foo\",\"\",\"\")],[(\"/nix/store/ss2p4wmxijn652haqyd7dckxwl4c7hxx-bar.drv\",[\"out\"])],[],\":\",\":\",[],[(\"bar\",\"/nix/store/mp57d33657rf34lzvlbpfa1gjfv5gmpg-bar\"),(\"builder\",\":\"),(\"name\",\"foo\"),(\"out\",\"/nix/store/fhaj6gmwns62s6ypkcldbaj2ybvkhx3p-foo\"),(\"system\",\":\")])"

-- TestWriter, TestDrvPath (derivation_test.go:206-247, 421-440)
example : roundTrip drv_ch49594n9avinrf8ip0aslidkc4lxkqv = .ok (drv_ch49594n9avinrf8ip0aslidkc4lxkqv, b!"/nix/store/ch49594n9avinrf8ip0aslidkc4lxkqv-foo.drv") := by decide +kernel

/-- `/repo/test/testdata/385bniikgs469345jfsbw24kjfhxrsi0-foo-file.drv` -/
def drv_385bniikgs469345jfsbw24kjfhxrsi0 : Bytes := b!"Derive([(\"out\",\"/nix/store/hb42ifgavm0d783l9xr0l3ydl76f1hss-foo-file\",\"\",\"\")],[],[\"/nix/store/gy295yl6dvm27wv7rsa6gswiq14zk3za-foofile\"],\":\",\":\",[],[(\"builder\",\":\"),(\"file\",\"/nix/store/gy295yl6dvm27wv7rsa6gswiq14zk3za-foofile\"),(\"name\",\"foo-file\"),(\"out\",\"/nix/store/hb42ifgavm0d783l9xr0l3ydl76f1hss-foo-file\"),(\"system\",\":\")])"

-- TestWriter, TestDrvPath (derivation_test.go:206-247, 421-440)
example : roundTrip drv_385bniikgs469345jfsbw24kjfhxrsi0 = .ok (drv_385bniikgs469345jfsbw24kjfhxrsi0, b!"/nix/store/385bniikgs469345jfsbw24kjfhxrsi0-foo-file.drv") := by decide +kernel

/-- `/repo/test/testdata/h32dahq0bx5rp1krcdx3a53asj21jvhk-has-multi-out.drv` -/
def drv_h32dahq0bx5rp1krcdx3a53asj21jvhk : Bytes := b!"Derive([(\"lib\",\"/nix/store/2vixb94v0hy2xc6p7mbnxxcyc095yyia-has-multi-out-lib\",\"\",\"\"),(\"out\",\"/nix/store/55lwldka5nyxa08wnvlizyqw02ihy8ic-has-multi-out\",\"\",\"\")],[],[],\":\",\":\",[],[(\"builder\",\":\"),(\"lib\",\"/nix/store/2vixb94v0hy2xc6p7mbnxxcyc095yyia-has-multi-out-lib\"),(\"name\",\"has-multi-out\"),(\"out\",\"/nix/store/55lwldka5nyxa08wnvlizyqw02ihy8ic-has-multi-out\"),(\"outputs\",\"out lib\"),(\"system\",\":\")])"

-- TestWriter, TestDrvPath (derivation_test.go:206-247, 421-440)
example : roundTrip drv_h32dahq0bx5rp1krcdx3a53asj21jvhk = .ok (drv_h32dahq0bx5rp1krcdx3a53asj21jvhk, b!"/nix/store/h32dahq0bx5rp1krcdx3a53asj21jvhk-has-multi-out.drv") := by decide +kernel

/-- `/repo/test/testdata/9lj1lkjm2ag622mh4h9rpy6j607an8g2-structured-attrs.drv` -/
def drv_9lj1lkjm2ag622mh4h9rpy6j607an8g2 : Bytes := b!"Derive([(\"out\",\"/nix/store/6a39dl014j57bqka7qx25k0vb20vkqm6-structured-attrs\",\"\",\"\")],[],[],\":\",\":\",[],[(\"__json\",\"{\\\"builder\\\":\\\":\\\",\\\"name\\\":\\\"structured-attrs\\\",\\\"system\\\":\\\":\\\"}\"),(\"out\",\"/nix/store/6a39dl014j57bqka7qx25k0vb20vkqm6-structured-attrs\")])"

-- TestWriter, TestDrvPath (derivation_test.go:206-247, 421-440)
example : roundTrip drv_9lj1lkjm2ag622mh4h9rpy6j607an8g2 = .ok (drv_9lj1lkjm2ag622mh4h9rpy6j607an8g2, b!"/nix/store/9lj1lkjm2ag622mh4h9rpy6j607an8g2-structured-attrs.drv") := by decide +kernel

/-- `/repo/test/testdata/292w8yzv5nn7nhdpxcs8b7vby2p27s09-nested-json.drv` -/
def drv_292w8yzv5nn7nhdpxcs8b7vby2p27s09 : Bytes := b!"Derive([(\"out\",\"/nix/store/pzr7lsd3q9pqsnb42r9b23jc5sh8irvn-nested-json\",\"\",\"\")],[],[],\":\",\":\",[],[(\"builder\",\":\"),(\"json\",\"{\\\"hello\\\":\\\"moto\\\\n\\\"}\"),(\"name\",\"nested-json\"),(\"out\",\"/nix/store/pzr7lsd3q9pqsnb42r9b23jc5sh8irvn-nested-json\"),(\"system\",\":\")])"

-- TestWriter, TestDrvPath (derivation_test.go:206-247, 421-440)
example : roundTrip drv_292w8yzv5nn7nhdpxcs8b7vby2p27s09 = .ok (drv_292w8yzv5nn7nhdpxcs8b7vby2p27s09, b!"/nix/store/292w8yzv5nn7nhdpxcs8b7vby2p27s09-nested-json.drv") := by decide +kernel

/-- `/repo/test/testdata/52a9id8hx688hvlnz4d1n25ml1jdykz0-unicode.drv` -/
def drv_52a9id8hx688hvlnz4d1n25ml1jdykz0 : Bytes := [68, 101, 114, 105, 118, 101, 40, 91, 40, 34, 111, 117, 116, 34, 44, 34, 47, 110, 105, 120, 47, 115, 116, 111, 114, 101, 47, 118, 103, 118, 100, 106, 54, 110, 102, 55, 115, 56, 107, 118, 102, 98, 108, 50, 115, 107, 98, 112, 119, 122, 57, 107, 99, 55, 120, 106, 97, 122, 99, 45, 117, 110, 105, 99, 111, 100, 101, 34, 44, 34, 34, 44, 34, 34, 41, 93, 44, 91, 93, 44, 91, 93, 44, 34, 58, 34, 44, 34, 58, 34, 44, 91, 93, 44, 91, 40, 34, 98, 117, 105, 108, 100, 101, 114, 34, 44, 34, 58, 34, 41, 44, 40, 34, 108, 101, 116, 116, 101, 114, 115, 34, 44, 34, 114, 195, 164, 107, 115, 109, 195, 182, 114, 103, 195, 165, 115, 92, 110, 114, 195, 184, 100, 103, 114, 195, 184, 100, 32, 109, 101, 100, 32, 102, 108, 195, 184, 100, 101, 92, 110, 76, 195, 188, 98, 101, 99, 107, 92, 110, 232, 130, 165, 231, 140, 170, 92, 110, 227, 129, 147, 227, 130, 147, 227, 129, 171, 227, 129, 161, 227, 129, 175, 32, 47, 32, 228, 187, 138, 230, 151, 165, 227, 129, 175, 92, 110, 240, 159, 140, 174, 92, 110, 34, 41, 44, 40, 34, 110, 97, 109, 101, 34, 44, 34, 117, 110, 105, 99, 111, 100, 101, 34, 41, 44, 40, 34, 111, 117, 116, 34, 44, 34, 47, 110, 105, 120, 47, 115, 116, 111, 114, 101, 47, 118, 103, 118, 100, 106, 54, 110, 102, 55, 115, 56, 107, 118, 102, 98, 108, 50, 115, 107, 98, 112, 119, 122, 57, 107, 99, 55, 120, 106, 97, 122, 99, 45, 117, 110, 105, 99, 111, 100, 101, 34, 41, 44, 40, 34, 115, 121, 115, 116, 101, 109, 34, 44, 34, 58, 34, 41, 93, 41]

-- TestWriter, TestDrvPath (derivation_test.go:206-247, 421-440)
example : roundTrip drv_52a9id8hx688hvlnz4d1n25ml1jdykz0 = .ok (drv_52a9id8hx688hvlnz4d1n25ml1jdykz0, b!"/nix/store/52a9id8hx688hvlnz4d1n25ml1jdykz0-unicode.drv") := by decide +kernel

/-- `/repo/test/testdata/x6p0hg79i3wg0kkv7699935f7rrj9jf3-latin1.drv` -/
def drv_x6p0hg79i3wg0kkv7699935f7rrj9jf3 : Bytes := [68, 101, 114, 105, 118, 101, 40, 91, 40, 34, 111, 117, 116, 34, 44, 34, 47, 110, 105, 120, 47, 115, 116, 111, 114, 101, 47, 120, 49, 102, 54, 106, 102, 113, 57, 113, 103, 98, 54, 105, 56, 106, 114, 109, 112, 105, 102, 107, 110, 57, 99, 54, 52, 102, 103, 52, 104, 99, 109, 45, 108, 97, 116, 105, 110, 49, 34, 44, 34, 34, 44, 34, 34, 41, 93, 44, 91, 93, 44, 91, 93, 44, 34, 58, 34, 44, 34, 58, 34, 44, 91, 93, 44, 91, 40, 34, 98, 117, 105, 108, 100, 101, 114, 34, 44, 34, 58, 34, 41, 44, 40, 34, 99, 104, 97, 114, 115, 34, 44, 34, 197, 196, 214, 34, 41, 44, 40, 34, 110, 97, 109, 101, 34, 44, 34, 108, 97, 116, 105, 110, 49, 34, 41, 44, 40, 34, 111, 117, 116, 34, 44, 34, 47, 110, 105, 120, 47, 115, 116, 111, 114, 101, 47, 120, 49, 102, 54, 106, 102, 113, 57, 113, 103, 98, 54, 105, 56, 106, 114, 109, 112, 105, 102, 107, 110, 57, 99, 54, 52, 102, 103, 52, 104, 99, 109, 45, 108, 97, 116, 105, 110, 49, 34, 41, 44, 40, 34, 115, 121, 115, 116, 101, 109, 34, 44, 34, 58, 34, 41, 93, 41]

-- TestWriter, TestDrvPath (derivation_test.go:206-247, 421-440)
example : roundTrip drv_x6p0hg79i3wg0kkv7699935f7rrj9jf3 = .ok (drv_x6p0hg79i3wg0kkv7699935f7rrj9jf3, b!"/nix/store/x6p0hg79i3wg0kkv7699935f7rrj9jf3-latin1.drv") := by decide +kernel

/-- `/repo/test/testdata/m1vfixn8iprlf0v9abmlrz7mjw1xj8kp-cp1252.drv` -/
def drv_m1vfixn8iprlf0v9abmlrz7mjw1xj8kp : Bytes := [68, 101, 114, 105, 118, 101, 40, 91, 40, 34, 111, 117, 116, 34, 44, 34, 47, 110, 105, 120, 47, 115, 116, 111, 114, 101, 47, 100, 114, 114, 50, 109, 106, 112, 57, 102, 112, 57, 118, 118, 122, 115, 102, 53, 102, 57, 112, 48, 97, 56, 48, 106, 51, 51, 100, 120, 121, 55, 109, 45, 99, 112, 49, 50, 53, 50, 34, 44, 34, 34, 44, 34, 34, 41, 93, 44, 91, 93, 44, 91, 93, 44, 34, 58, 34, 44, 34, 58, 34, 44, 91, 93, 44, 91, 40, 34, 98, 117, 105, 108, 100, 101, 114, 34, 44, 34, 58, 34, 41, 44, 40, 34, 99, 104, 97, 114, 115, 34, 44, 34, 197, 196, 214, 34, 41, 44, 40, 34, 110, 97, 109, 101, 34, 44, 34, 99, 112, 49, 50, 53, 50, 34, 41, 44, 40, 34, 111, 117, 116, 34, 44, 34, 47, 110, 105, 120, 47, 115, 116, 111, 114, 101, 47, 100, 114, 114, 50, 109, 106, 112, 57, 102, 112, 57, 118, 118, 122, 115, 102, 53, 102, 57, 112, 48, 97, 56, 48, 106, 51, 51, 100, 120, 121, 55, 109, 45, 99, 112, 49, 50, 53, 50, 34, 41, 44, 40, 34, 115, 121, 115, 116, 101, 109, 34, 44, 34, 58, 34, 41, 93, 41]

-- TestWriter, TestDrvPath (derivation_test.go:206-247, 421-440)
example : roundTrip drv_m1vfixn8iprlf0v9abmlrz7mjw1xj8kp = .ok (drv_m1vfixn8iprlf0v9abmlrz7mjw1xj8kp, b!"/nix/store/m1vfixn8iprlf0v9abmlrz7mjw1xj8kp-cp1252.drv") := by decide +kernel

/-- `Put` of the files one after the other into a store, and the paths it returned (store_test.go:107-127). -/
def putAll {σ : Type} (put : Derivation → M σ Bytes) : List Bytes → M σ (List Bytes)
  | [] => pure []
  | f :: fs => fun s =>
    match readDerivation jsonName ⟨f, .eof⟩ with
    | .ok d => ((put d).bind fun p => (putAll put fs).bind fun ps => pure (p :: ps)) s
    | _ => (.panic, s)

/-- The files of store_test.go:22-62, in the order of the test. -/
def storeCases : List Bytes := [drv_0hm2f1psjpcwg8fijsmr4wwxrx59s092, drv_4wvvbi4jwn0prsdxb7vs673qa5h9gr7x, drv_ss2p4wmxijn652haqyd7dckxwl4c7hxx, drv_ch49594n9avinrf8ip0aslidkc4lxkqv, drv_h32dahq0bx5rp1krcdx3a53asj21jvhk, drv_9lj1lkjm2ag622mh4h9rpy6j607an8g2]

/-- Their store paths. -/
def storePaths : List Bytes := [b!"/nix/store/0hm2f1psjpcwg8fijsmr4wwxrx59s092-bar.drv",
  b!"/nix/store/4wvvbi4jwn0prsdxb7vs673qa5h9gr7x-foo.drv",
  b!"/nix/store/ss2p4wmxijn652haqyd7dckxwl4c7hxx-bar.drv",
  b!"/nix/store/ch49594n9avinrf8ip0aslidkc4lxkqv-foo.drv",
  b!"/nix/store/h32dahq0bx5rp1krcdx3a53asj21jvhk-has-multi-out.drv",
  b!"/nix/store/9lj1lkjm2ag622mh4h9rpy6j607an8g2-structured-attrs.drv"]

-- TestStores "normal Put", MapStore
example : (putAll (MapStore.put sha256) storeCases newMapStore).1 = .ok storePaths := by decide +kernel

-- TestStores "normal Put", BadgerStore
example : (putAll (Badger.put sha256) storeCases []).1 = .ok storePaths := by decide +kernel

-- TestStores "missing input derivation"
example : (putAll (MapStore.put sha256) ((storeCases.drop 1).take 1) newMapStore).1.isOk = false
    ∧ (putAll (Badger.put sha256) ((storeCases.drop 1).take 1) []).1.isOk = false := by decide +kernel

/-- The fixed-sha256 derivation with another output path, and with a renamed output (store_test.go:158-187). -/
def broken : List Derivation :=
  match readDerivation jsonName ⟨drv_0hm2f1psjpcwg8fijsmr4wwxrx59s092, .eof⟩ with
  | .ok d => [
      { d with outputs := d.outputs.map fun x => (x.1, { x.2 with path := b!"/nix/store/1q0pg5zpfmznxscq3avycvf9xdvx50n3-bar" }) },
      { d with outputs := d.outputs.map fun x => (b!"foo", x.2) }]
  | _ => []

-- TestStores "wrong output paths", "wrong output name"
example : (broken.map fun d => ((MapStore.put sha256 d newMapStore).1.isOk, (Badger.put sha256 d []).1.isOk))
    = [(false, false), (false, false)] := by decide +kernel

end Verif.RepoTests
