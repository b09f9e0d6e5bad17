import Verif.Hash.Spec

/-!
# The hash functions of fio

Model of /repo/crc/md5.c, sha1.c, sha256.c, sha512.c and sha3.c.

Simplifications:
* The machine is little-endian (`CONFIG_LITTLE_ENDIAN`), `unsigned long` and `size_t` have 64 bits.
* Memory is a list of bytes; a read or write outside the object gives `none`.  Buffers may hold anything at first.
* The unrolled rounds are written as groups of eight, five or four lines, which in C differ only in their constants.
* The registers of a block function are a record, the arrays of the context likewise.
-/

namespace Fio.Hash
open Spec (Regs Regs4 Regs5)

/-! ## Memory -/

/-- A 32-bit load. -/
def ld32 (b : List Byte) (i : Nat) : BitVec 32 :=
  (((b.getD (4 * i + 3) 0 ++ b.getD (4 * i + 2) 0) ++ b.getD (4 * i + 1) 0) ++ b.getD (4 * i) 0 : BitVec (8 + 8 + 8 + 8))

/-- A 64-bit load. -/
def ld64 (b : List Byte) (i : Nat) : BitVec 64 := (ld32 b (2 * i + 1) ++ ld32 b (2 * i) : BitVec (32 + 32))

/-- A 32-bit store, as bytes. -/
def st32 (x : BitVec 32) : List Byte := (List.range 4).map fun i => (x >>> (8 * i)).setWidth 8

/-- A 64-bit store, as bytes. -/
def st64 (x : BitVec 64) : List Byte := (List.range 8).map fun i => (x >>> (8 * i)).setWidth 8

/-- /repo/lib/bswap.h:7-17 `__be32_to_cpu`; `htonl` is the same. -/
def be32 (val : BitVec 32) : BitVec 32 :=
  let c1 := (val >>> 24) &&& 0xff
  let c2 := (val >>> 16) &&& 0xff
  let c3 := (val >>> 8) &&& 0xff
  let c4 := val &&& 0xff
  c1 ||| c2 <<< 8 ||| c3 <<< 16 ||| c4 <<< 24

/-- /repo/lib/bswap.h:19-33 `__be64_to_cpu`. -/
def be64 (val : BitVec 64) : BitVec 64 :=
  let c1 := (val >>> 56) &&& 0xff
  let c2 := (val >>> 48) &&& 0xff
  let c3 := (val >>> 40) &&& 0xff
  let c4 := (val >>> 32) &&& 0xff
  let c5 := (val >>> 24) &&& 0xff
  let c6 := (val >>> 16) &&& 0xff
  let c7 := (val >>> 8) &&& 0xff
  let c8 := val &&& 0xff
  c1 ||| c2 <<< 8 ||| c3 <<< 16 ||| c4 <<< 24 ||| c5 <<< 32 ||| c6 <<< 40 ||| c7 <<< 48 ||| c8 <<< 56

/-- Reading `n` bytes at `off`. -/
def rd (b : List Byte) (off n : Nat) : Option (List Byte) :=
  if off + n ≤ b.length then some ((b.drop off).take n) else none

/-- Writing at `off`. -/
def put (b : List Byte) (off : Nat) (xs : List Byte) : Option (List Byte) :=
  if off + xs.length ≤ b.length then some (b.take off ++ (xs ++ b.drop (off + xs.length))) else none

/-- 2 ^ 32, for `unsigned int`. -/
def u32 (n : Nat) : Nat := n % 4294967296

/-- `memcpy(buf + off, src + soff, n)`. -/
def cpy (b : List Byte) (off : Nat) (src : List Byte) (soff n : Nat) : Option (List Byte) := do
  put b off (← rd src soff n)

/-- Static padding: a byte 80h and zeros (sha256.c:276, sha1.c:60, sha512.c:202). -/
def padding (n : Nat) : List Byte := 0x80#8 :: List.replicate (n - 1) 0#8

/-! ## SHA-256 -/

/-- /repo/crc/sha256.c:27-30 and sha512.c:24-27 `Ch`. -/
def ch {w : Nat} (x y z : BitVec w) : BitVec w := z ^^^ (x &&& (y ^^^ z))

/-- /repo/crc/sha256.c:32-35 and sha512.c:29-32 `Maj`. -/
def maj {w : Nat} (x y z : BitVec w) : BitVec w := (x &&& y) ||| (z &&& (x ||| y))

/-- /repo/crc/sha256.c:51-54 `ror32`, /repo/crc/sha512.c:34-37 `RORuint64_t`. -/
def ror {w : Nat} (x : BitVec w) (n : Nat) : BitVec w := (x >>> n) ||| (x <<< (w - n))

/-- /repo/crc/sha256.c:37 `e0`. -/
def e0_256 (x : BitVec 32) : BitVec 32 := ror x 2 ^^^ ror x 13 ^^^ ror x 22
/-- /repo/crc/sha256.c:38 `e1`. -/
def e1_256 (x : BitVec 32) : BitVec 32 := ror x 6 ^^^ ror x 11 ^^^ ror x 25
/-- /repo/crc/sha256.c:39 `s0`. -/
def s0_256 (x : BitVec 32) : BitVec 32 := ror x 7 ^^^ ror x 18 ^^^ (x >>> 3)
/-- /repo/crc/sha256.c:40 `s1`. -/
def s1_256 (x : BitVec 32) : BitVec 32 := ror x 17 ^^^ ror x 19 ^^^ (x >>> 10)

/-- /repo/crc/sha256.c:61-64 `BLEND_OP`; `W[I]` is the next word to be set. -/
def blend256 (ws : List (BitVec 32)) (i : Nat) : List (BitVec 32) :=
  ws ++ [s1_256 (ws.getD (i - 2) 0) + ws.getD (i - 7) 0 + s0_256 (ws.getD (i - 15) 0) + ws.getD (i - 16) 0]

/-- /repo/crc/sha256.c:72-78: the array `W`. -/
def load256 (inp : List Byte) : List (BitVec 32) :=
  (List.range 48).foldl (fun ws i => blend256 ws (16 + i)) ((List.range 16).map fun i => be32 (ld32 inp i))

/-- Eight lines of the unrolled loop, /repo/crc/sha256.c:85-100; the other seven groups have other constants and
indices. -/
def oct256 (ws : List (BitVec 32)) (i : Nat) (k0 k1 k2 k3 k4 k5 k6 k7 : BitVec 32) (r : Regs 32) : Regs 32 :=
  let ⟨a, b, c, d, e, f, g, h⟩ := r
  let t1 := h + e1_256 e + ch e f g + k0 + ws.getD i 0
  let t2 := e0_256 a + maj a b c; let d := d + t1; let h := t1 + t2
  let t1 := g + e1_256 d + ch d e f + k1 + ws.getD (i + 1) 0
  let t2 := e0_256 h + maj h a b; let c := c + t1; let g := t1 + t2
  let t1 := f + e1_256 c + ch c d e + k2 + ws.getD (i + 2) 0
  let t2 := e0_256 g + maj g h a; let b := b + t1; let f := t1 + t2
  let t1 := e + e1_256 b + ch b c d + k3 + ws.getD (i + 3) 0
  let t2 := e0_256 f + maj f g h; let a := a + t1; let e := t1 + t2
  let t1 := d + e1_256 a + ch a b c + k4 + ws.getD (i + 4) 0
  let t2 := e0_256 e + maj e f g; let h := h + t1; let d := t1 + t2
  let t1 := c + e1_256 h + ch h a b + k5 + ws.getD (i + 5) 0
  let t2 := e0_256 d + maj d e f; let g := g + t1; let c := t1 + t2
  let t1 := b + e1_256 g + ch g h a + k6 + ws.getD (i + 6) 0
  let t2 := e0_256 c + maj c d e; let f := f + t1; let b := t1 + t2
  let t1 := a + e1_256 f + ch f g h + k7 + ws.getD (i + 7) 0
  let t2 := e0_256 b + maj b c d; let e := e + t1; let a := t1 + t2
  ⟨a, b, c, d, e, f, g, h⟩

/-- /repo/crc/sha256.c:84-219: the eight groups. -/
def rounds256 (ws : List (BitVec 32)) (r : Regs 32) : Regs 32 :=
  -- lines 85-100
  let r := oct256 ws 0 0x428a2f98#32 0x71374491#32 0xb5c0fbcf#32 0xe9b5dba5#32 0x3956c25b#32 0x59f111f1#32
    0x923f82a4#32 0xab1c5ed5#32 r
  -- lines 102-117
  let r := oct256 ws 8 0xd807aa98#32 0x12835b01#32 0x243185be#32 0x550c7dc3#32 0x72be5d74#32 0x80deb1fe#32
    0x9bdc06a7#32 0xc19bf174#32 r
  -- lines 119-134
  let r := oct256 ws 16 0xe49b69c1#32 0xefbe4786#32 0x0fc19dc6#32 0x240ca1cc#32 0x2de92c6f#32 0x4a7484aa#32
    0x5cb0a9dc#32 0x76f988da#32 r
  -- lines 136-151
  let r := oct256 ws 24 0x983e5152#32 0xa831c66d#32 0xb00327c8#32 0xbf597fc7#32 0xc6e00bf3#32 0xd5a79147#32
    0x06ca6351#32 0x14292967#32 r
  -- lines 153-168
  let r := oct256 ws 32 0x27b70a85#32 0x2e1b2138#32 0x4d2c6dfc#32 0x53380d13#32 0x650a7354#32 0x766a0abb#32
    0x81c2c92e#32 0x92722c85#32 r
  -- lines 170-185
  let r := oct256 ws 40 0xa2bfe8a1#32 0xa81a664b#32 0xc24b8b70#32 0xc76c51a3#32 0xd192e819#32 0xd6990624#32
    0xf40e3585#32 0x106aa070#32 r
  -- lines 187-202
  let r := oct256 ws 48 0x19a4c116#32 0x1e376c08#32 0x2748774c#32 0x34b0bcb5#32 0x391c0cb3#32 0x4ed8aa4a#32
    0x5b9cca4f#32 0x682e6ff3#32 r
  -- lines 204-219
  let r := oct256 ws 56 0x748f82ee#32 0x78a5636f#32 0x84c87814#32 0x8cc70208#32 0x90befffa#32 0xa4506ceb#32
    0xbef9a3f7#32 0xc67178f2#32 r
  r

/-- /repo/crc/sha256.c:66-227 `sha256_transform`. -/
def transform256 (st : Regs 32) (inp : List Byte) : Option (Regs 32) := do
  let _ ← rd inp 0 64
  let r := rounds256 (load256 inp) st
  some ⟨st.a + r.a, st.b + r.b, st.c + r.c, st.d + r.d, st.e + r.e, st.f + r.f, st.g + r.g, st.h + r.h⟩

/-- /repo/crc/sha256.h:9-13 `struct fio_sha256_ctx`. -/
structure Ctx256 where
  count : Nat
  state : Regs 32
  buf : List Byte

/-- /repo/crc/sha256.c:229-240 `fio_sha256_init`. -/
def init256 (buf : List Byte) : Ctx256 :=
  ⟨0, ⟨0x6a09e667#32, 0xbb67ae85#32, 0x3c6ef372#32, 0xa54ff53a#32, 0x510e527f#32, 0x9b05688c#32, 0x1f83d9ab#32,
    0x5be0cd19#32⟩, buf⟩

/-- The loop of /repo/crc/sha256.c:260-264.  The result is the state and `done`. -/
def loop256 (data : List Byte) : Nat → Regs 32 → List Byte → Nat → Option (Regs 32 × Nat)
  | 0, _, _, _ => none
  | n + 1, st, src, done => do
    let st ← transform256 st src
    let done := u32 (done + 64)
    if u32 (done + 63) < data.length then loop256 data n st (data.drop done) done else some (st, done)

/-- /repo/crc/sha256.c:242-269 `fio_sha256_update`. -/
def update256 (c : Ctx256) (data : List Byte) : Option Ctx256 := do
  let len := data.length
  let part := c.count % 64
  let count := u32 (c.count + len)
  if u32 (part + len) > 63 then do
    let (buf, src, done) ← if part ≠ 0 then do
        let done := u32 (4294967296 - part)
        let buf ← cpy c.buf part data 0 (u32 (done + 64))
        some (buf, buf, done)
      else some (c.buf, data, 0)
    let (st, done) ← loop256 data (len + 1) c.state src done
    let buf ← cpy buf 0 data done (len - done)
    some ⟨count, st, buf⟩
  else do
    let buf ← cpy c.buf part data 0 len
    some ⟨count, c.state, buf⟩

/-- /repo/crc/sha256.c:271-292 `fio_sha256_final`. -/
def final256 (c : Ctx256) : Option Ctx256 := do
  let bits : BitVec 64 := BitVec.ofNat 64 c.count <<< 3
  let index := c.count % 64
  let padLen := if index < 56 then 56 - index else (64 + 56) - index
  let c ← update256 c ((padding 64).take padLen)
  let c ← update256 c (st64 bits)
  let s := c.state
  let buf ← put c.buf 0 ([s.a, s.b, s.c, s.d, s.e, s.f, s.g, s.h].map fun x => x.setWidth 8)
  some { c with buf }

/-! ## SHA-512 -/

/-- /repo/crc/sha512.c:39-67 `sha512_K`. -/
def k512 : List (BitVec 64) :=
  [0x428a2f98d728ae22#64, 0x7137449123ef65cd#64, 0xb5c0fbcfec4d3b2f#64, 0xe9b5dba58189dbbc#64,
   0x3956c25bf348b538#64, 0x59f111f1b605d019#64, 0x923f82a4af194f9b#64, 0xab1c5ed5da6d8118#64,
   0xd807aa98a3030242#64, 0x12835b0145706fbe#64, 0x243185be4ee4b28c#64, 0x550c7dc3d5ffb4e2#64,
   0x72be5d74f27b896f#64, 0x80deb1fe3b1696b1#64, 0x9bdc06a725c71235#64, 0xc19bf174cf692694#64,
   0xe49b69c19ef14ad2#64, 0xefbe4786384f25e3#64, 0x0fc19dc68b8cd5b5#64, 0x240ca1cc77ac9c65#64,
   0x2de92c6f592b0275#64, 0x4a7484aa6ea6e483#64, 0x5cb0a9dcbd41fbd4#64, 0x76f988da831153b5#64,
   0x983e5152ee66dfab#64, 0xa831c66d2db43210#64, 0xb00327c898fb213f#64, 0xbf597fc7beef0ee4#64,
   0xc6e00bf33da88fc2#64, 0xd5a79147930aa725#64, 0x06ca6351e003826f#64, 0x142929670a0e6e70#64,
   0x27b70a8546d22ffc#64, 0x2e1b21385c26c926#64, 0x4d2c6dfc5ac42aed#64, 0x53380d139d95b3df#64,
   0x650a73548baf63de#64, 0x766a0abb3c77b2a8#64, 0x81c2c92e47edaee6#64, 0x92722c851482353b#64,
   0xa2bfe8a14cf10364#64, 0xa81a664bbc423001#64, 0xc24b8b70d0f89791#64, 0xc76c51a30654be30#64,
   0xd192e819d6ef5218#64, 0xd69906245565a910#64, 0xf40e35855771202a#64, 0x106aa07032bbd1b8#64,
   0x19a4c116b8d2d0c8#64, 0x1e376c085141ab53#64, 0x2748774cdf8eeb99#64, 0x34b0bcb5e19b48a8#64,
   0x391c0cb3c5c95a63#64, 0x4ed8aa4ae3418acb#64, 0x5b9cca4f7763e373#64, 0x682e6ff3d6b2b8a3#64,
   0x748f82ee5defb2fc#64, 0x78a5636f43172f60#64, 0x84c87814a1f0ab72#64, 0x8cc702081a6439ec#64,
   0x90befffa23631e28#64, 0xa4506cebde82bde9#64, 0xbef9a3f7b2c67915#64, 0xc67178f2e372532b#64,
   0xca273eceea26619c#64, 0xd186b8c721c0c207#64, 0xeada7dd6cde0eb1e#64, 0xf57d4f7fee6ed178#64,
   0x06f067aa72176fba#64, 0x0a637dc5a2c898a6#64, 0x113f9804bef90dae#64, 0x1b710b35131c471b#64,
   0x28db77f523047d84#64, 0x32caab7b40c72493#64, 0x3c9ebe0a15c9bebc#64, 0x431d67c49c100d4c#64,
   0x4cc5d4becb3e42b6#64, 0x597f299cfc657e2a#64, 0x5fcb6fab3ad6faec#64, 0x6c44198c4a475817#64]

/-- /repo/crc/sha512.c:69 `e0`. -/
def e0_512 (x : BitVec 64) : BitVec 64 := ror x 28 ^^^ ror x 34 ^^^ ror x 39
/-- /repo/crc/sha512.c:70 `e1`. -/
def e1_512 (x : BitVec 64) : BitVec 64 := ror x 14 ^^^ ror x 18 ^^^ ror x 41
/-- /repo/crc/sha512.c:71 `s0`. -/
def s0_512 (x : BitVec 64) : BitVec 64 := ror x 1 ^^^ ror x 8 ^^^ (x >>> 7)
/-- /repo/crc/sha512.c:72 `s1`. -/
def s1_512 (x : BitVec 64) : BitVec 64 := ror x 19 ^^^ ror x 61 ^^^ (x >>> 6)

/-- /repo/crc/sha512.c:99-102 `BLEND_OP`; `W[I]` is the next word to be set. -/
def blend512 (ws : List (BitVec 64)) (i : Nat) : List (BitVec 64) :=
  ws ++ [s1_512 (ws.getD (i - 2) 0) + ws.getD (i - 7) 0 + s0_512 (ws.getD (i - 15) 0) + ws.getD (i - 16) 0]

/-- /repo/crc/sha512.c:110-115: the array `W`. -/
def load512 (inp : List Byte) : List (BitVec 64) :=
  (List.range 64).foldl (fun ws i => blend512 ws (16 + i)) ((List.range 16).map fun i => be64 (ld64 inp i))

/-- The body of the loop /repo/crc/sha512.c:122-139. -/
def oct512 (ws : List (BitVec 64)) (r : Regs 64) (i : Nat) : Regs 64 :=
  let ⟨a, b, c, d, e, f, g, h⟩ := r
  let t1 := h + e1_512 e + ch e f g + k512.getD i 0 + ws.getD i 0
  let t2 := e0_512 a + maj a b c; let d := d + t1; let h := t1 + t2
  let t1 := g + e1_512 d + ch d e f + k512.getD (i + 1) 0 + ws.getD (i + 1) 0
  let t2 := e0_512 h + maj h a b; let c := c + t1; let g := t1 + t2
  let t1 := f + e1_512 c + ch c d e + k512.getD (i + 2) 0 + ws.getD (i + 2) 0
  let t2 := e0_512 g + maj g h a; let b := b + t1; let f := t1 + t2
  let t1 := e + e1_512 b + ch b c d + k512.getD (i + 3) 0 + ws.getD (i + 3) 0
  let t2 := e0_512 f + maj f g h; let a := a + t1; let e := t1 + t2
  let t1 := d + e1_512 a + ch a b c + k512.getD (i + 4) 0 + ws.getD (i + 4) 0
  let t2 := e0_512 e + maj e f g; let h := h + t1; let d := t1 + t2
  let t1 := c + e1_512 h + ch h a b + k512.getD (i + 5) 0 + ws.getD (i + 5) 0
  let t2 := e0_512 d + maj d e f; let g := g + t1; let c := t1 + t2
  let t1 := b + e1_512 g + ch g h a + k512.getD (i + 6) 0 + ws.getD (i + 6) 0
  let t2 := e0_512 c + maj c d e; let f := f + t1; let b := t1 + t2
  let t1 := a + e1_512 f + ch f g h + k512.getD (i + 7) 0 + ws.getD (i + 7) 0
  let t2 := e0_512 b + maj b c d; let e := e + t1; let a := t1 + t2
  ⟨a, b, c, d, e, f, g, h⟩

/-- /repo/crc/sha512.c:104-146 `sha512_transform`. -/
def transform512 (st : Regs 64) (inp : List Byte) : Option (Regs 64) := do
  let _ ← rd inp 0 128
  let ws := load512 inp
  let r := (List.range 10).foldl (fun r i => oct512 ws r (8 * i)) st
  some ⟨st.a + r.a, st.b + r.b, st.c + r.c, st.d + r.d, st.e + r.e, st.f + r.f, st.g + r.g, st.h + r.h⟩

/-- The four words of `count`, /repo/crc/sha512.h:8. -/
structure Count where
  c0 : Nat
  c1 : Nat
  c2 : Nat
  c3 : Nat
  deriving DecidableEq

/-- /repo/crc/sha512.h:6-11 `struct fio_sha512_ctx`; `W` is only scratch space. -/
structure Ctx512 where
  state : Regs 64
  count : Count
  buf : List Byte

/-- /repo/crc/sha512.c:148-159 `fio_sha512_init`. -/
def init512 (buf : List Byte) : Ctx512 :=
  ⟨⟨0x6a09e667f3bcc908#64, 0xbb67ae8584caa73b#64, 0x3c6ef372fe94f82b#64, 0xa54ff53a5f1d36f1#64,
    0x510e527fade682d1#64, 0x9b05688c2b3e6c1f#64, 0x1f83d9abfb41bd6b#64, 0x5be0cd19137e2179#64⟩, ⟨0, 0, 0, 0⟩, buf⟩

/-- /repo/crc/sha512.c:169-175: update the number of bits. -/
def addCount (c : Count) (len : Nat) : Count :=
  let l3 := u32 (8 * len)
  let c0 := u32 (c.c0 + l3)
  if c0 < l3 then
    let c1 := u32 (c.c1 + 1)
    let (c2, c3) := if c1 < 1 then
        let c2 := u32 (c.c2 + 1)
        if c2 < 1 then (c2, u32 (c.c3 + 1)) else (c2, c.c3)
      else (c.c2, c.c3)
    ⟨c0, u32 (c1 + len / 536870912), c2, c3⟩
  else { c with c0 }

/-- The loop of /repo/crc/sha512.c:184-185; the result is the state and `i`. -/
def loop512 (data : List Byte) : Nat → Regs 64 → Nat → Option (Regs 64 × Nat)
  | 0, _, _ => none
  | n + 1, st, i =>
    if u32 (i + 127) < data.length then do
      let st ← transform512 st (data.drop i)
      loop512 data n st (u32 (i + 128))
    else some (st, i)

/-- /repo/crc/sha512.c:161-197 `fio_sha512_update`. -/
def update512 (c : Ctx512) (data : List Byte) : Option Ctx512 := do
  let len := data.length
  let idx := c.count.c0 / 8 % 128
  let count := addCount c.count len
  let partLen := 128 - idx
  if len ≥ partLen then do
    let buf ← cpy c.buf idx data 0 partLen
    let st ← transform512 c.state buf
    let (st, i) ← loop512 data (len + 1) st partLen
    let buf ← cpy buf 0 data i (len - i)
    some ⟨st, count, buf⟩
  else do
    let buf ← cpy c.buf idx data 0 len
    some ⟨c.state, count, buf⟩

/-- /repo/crc/sha512.c:214-232: the number of bits as 16 bytes. -/
def bits512 (c : Count) : List Byte :=
  (List.range 16).map fun i =>
    let t := if i < 4 then c.c3 else if i < 8 then c.c2 else if i < 12 then c.c1 else c.c0
    BitVec.ofNat 8 (t / 256 ^ (3 - i % 4))

/-- /repo/crc/sha512.c:243-253: a word of the digest as bytes. -/
def out512 (x : BitVec 64) : List Byte := (List.range 8).map fun j => (x >>> (8 * (7 - j))).setWidth 8

/-- /repo/crc/sha512.c:199-254 `fio_sha512_final`. -/
def final512 (c : Ctx512) : Option Ctx512 := do
  let bits := bits512 c.count
  let index := c.count.c0 / 8 % 128
  let padLen := if index < 112 then 112 - index else (128 + 112) - index
  let c ← update512 c ((padding 128).take padLen)
  let c ← update512 c bits
  let s := c.state
  let buf ← put c.buf 0 ([s.a, s.b, s.c, s.d, s.e, s.f, s.g, s.h].flatMap out512)
  some { c with buf }

/-! ## SHA-1 -/

/-- /repo/crc/sha1.c:82-84 `SHA_ROL`; on x86 the same by an instruction. -/
def rol {w : Nat} (x : BitVec w) (n : Nat) : BitVec w := (x <<< n) ||| (x >>> (w - n))

/-- The local array and the variables `A` … `E` of /repo/crc/sha1.c:110-216. -/
structure Loc1 where
  array : List (BitVec 32)
  A : BitVec 32
  B : BitVec 32
  C : BitVec 32
  D : BitVec 32
  E : BitVec 32

/-- /repo/crc/sha1.c:96 `SHA_SRC`. -/
def shaSrc (data : List Byte) (_array : List (BitVec 32)) (t : Nat) : BitVec 32 := be32 (ld32 data t)

/-- /repo/crc/sha1.c:97 `SHA_MIX`. -/
def shaMix (_data : List Byte) (array : List (BitVec 32)) (t : Nat) : BitVec 32 :=
  let w := fun x => array.getD (x % 16) 0
  rol (w (t + 13) ^^^ w (t + 8) ^^^ w (t + 2) ^^^ w t) 1

/-- /repo/crc/sha1.c:99-102 `SHA_ROUND`: the new array, `E` and `B`. -/
def shaRound (input : List Byte → List (BitVec 32) → Nat → BitVec 32) (data : List Byte) (array : List (BitVec 32))
    (t : Nat) (fn constant A B E : BitVec 32) : List (BitVec 32) × BitVec 32 × BitVec 32 :=
  let temp := input data array t
  (array.set (t % 16) temp, E + (temp + rol A 5 + fn + constant), ror B 2)

/-- The type of the macros `T_…`. -/
abbrev TMacro := List Byte → List (BitVec 32) → Nat → BitVec 32 → BitVec 32 → BitVec 32 → BitVec 32 → BitVec 32 →
  List (BitVec 32) × BitVec 32 × BitVec 32

/-- /repo/crc/sha1.c:104 `T_0_15`. -/
def t_0_15 : TMacro := fun data array t A B C D E =>
  shaRound shaSrc data array t (((C ^^^ D) &&& B) ^^^ D) 0x5a827999#32 A B E
/-- /repo/crc/sha1.c:105 `T_16_19`. -/
def t_16_19 : TMacro := fun data array t A B C D E =>
  shaRound shaMix data array t (((C ^^^ D) &&& B) ^^^ D) 0x5a827999#32 A B E
/-- /repo/crc/sha1.c:106 `T_20_39`. -/
def t_20_39 : TMacro := fun data array t A B C D E =>
  shaRound shaMix data array t (B ^^^ C ^^^ D) 0x6ed9eba1#32 A B E
/-- /repo/crc/sha1.c:107 `T_40_59`. -/
def t_40_59 : TMacro := fun data array t A B C D E =>
  shaRound shaMix data array t ((B &&& C) + (D &&& (B ^^^ C))) 0x8f1bbcdc#32 A B E
/-- /repo/crc/sha1.c:108 `T_60_79`. -/
def t_60_79 : TMacro := fun data array t A B C D E =>
  shaRound shaMix data array t (B ^^^ C ^^^ D) 0xca62c1d6#32 A B E

/-- Five lines, /repo/crc/sha1.c:122-126; after five the variables have their places again. -/
def quint (T0 T1 T2 T3 T4 : TMacro) (data : List Byte) (t : Nat) (r : Loc1) : Loc1 :=
  let ⟨array, A, B, C, D, E⟩ := r
  let (array, E, B) := T0 data array t A B C D E
  let (array, D, A) := T1 data array (t + 1) E A B C D
  let (array, C, E) := T2 data array (t + 2) D E A B C
  let (array, B, D) := T3 data array (t + 3) C D E A B
  let (array, A, C) := T4 data array (t + 4) B C D E A
  ⟨array, A, B, C, D, E⟩

/-- /repo/crc/sha1.c:121-209: the eighty lines. -/
def rounds1 (data : List Byte) (r : Loc1) : Loc1 :=
  -- lines 122-126
  let r := quint t_0_15 t_0_15 t_0_15 t_0_15 t_0_15 data 0 r
  -- lines 127-131
  let r := quint t_0_15 t_0_15 t_0_15 t_0_15 t_0_15 data 5 r
  -- lines 132-136
  let r := quint t_0_15 t_0_15 t_0_15 t_0_15 t_0_15 data 10 r
  -- lines 137-143
  let r := quint t_0_15 t_16_19 t_16_19 t_16_19 t_16_19 data 15 r
  -- lines 146-150
  let r := quint t_20_39 t_20_39 t_20_39 t_20_39 t_20_39 data 20 r
  -- lines 151-155
  let r := quint t_20_39 t_20_39 t_20_39 t_20_39 t_20_39 data 25 r
  -- lines 156-160
  let r := quint t_20_39 t_20_39 t_20_39 t_20_39 t_20_39 data 30 r
  -- lines 161-165
  let r := quint t_20_39 t_20_39 t_20_39 t_20_39 t_20_39 data 35 r
  -- lines 168-172
  let r := quint t_40_59 t_40_59 t_40_59 t_40_59 t_40_59 data 40 r
  -- lines 173-177
  let r := quint t_40_59 t_40_59 t_40_59 t_40_59 t_40_59 data 45 r
  -- lines 178-182
  let r := quint t_40_59 t_40_59 t_40_59 t_40_59 t_40_59 data 50 r
  -- lines 183-187
  let r := quint t_40_59 t_40_59 t_40_59 t_40_59 t_40_59 data 55 r
  -- lines 190-194
  let r := quint t_60_79 t_60_79 t_60_79 t_60_79 t_60_79 data 60 r
  -- lines 195-199
  let r := quint t_60_79 t_60_79 t_60_79 t_60_79 t_60_79 data 65 r
  -- lines 200-204
  let r := quint t_60_79 t_60_79 t_60_79 t_60_79 t_60_79 data 70 r
  -- lines 205-209
  let r := quint t_60_79 t_60_79 t_60_79 t_60_79 t_60_79 data 75 r
  r

/-- /repo/crc/sha1.c:110-216 `blk_SHA1Block`; `junk` is what the local array holds at first. -/
def block1 (junk : List (BitVec 32)) (h : Regs5) (data : List Byte) : Option Regs5 := do
  let _ ← rd data 0 64
  let r := rounds1 data ⟨junk, h.a, h.b, h.c, h.d, h.e⟩
  some ⟨h.a + r.A, h.b + r.B, h.c + r.C, h.d + r.D, h.e + r.E⟩

/-- /repo/crc/sha1.h:12-16 `struct fio_sha1_ctx`; `W` as bytes. -/
structure Ctx1 where
  H : Regs5
  W : List Byte
  size : Nat

/-- /repo/crc/sha1.c:15-26 `fio_sha1_init`. -/
def init1 (w : List Byte) : Ctx1 := ⟨⟨0x67452301#32, 0xefcdab89#32, 0x98badcfe#32, 0x10325476#32, 0xc3d2e1f0#32⟩, w, 0⟩

/-- The loop of /repo/crc/sha1.c:49-53; the result is the state and what is left of the data. -/
def loop1 (junk : List (BitVec 32)) : Nat → Regs5 → List Byte → Option (Regs5 × List Byte)
  | 0, _, _ => none
  | n + 1, h, data =>
    if data.length ≥ 64 then do
      let h ← block1 junk h data
      loop1 junk n h (data.drop 64)
    else some (h, data)

/-- /repo/crc/sha1.c:49-55. -/
def tail1 (junk : List (BitVec 32)) (c : Ctx1) (data : List Byte) : Option Ctx1 := do
  let (h, data) ← loop1 junk (data.length + 1) c.H data
  let w ← if data.length ≠ 0 then cpy c.W 0 data 0 data.length else some c.W
  some { c with H := h, W := w }

/-- /repo/crc/sha1.c:28-56 `fio_sha1_update`. -/
def update1 (junk : List (BitVec 32)) (c : Ctx1) (data : List Byte) : Option Ctx1 := do
  let lenW := c.size % 64
  let c := { c with size := (c.size + data.length) % 18446744073709551616 }
  if lenW ≠ 0 then do
    let left := 64 - lenW
    let left := if data.length < left then data.length else left
    let w ← cpy c.W lenW data 0 left
    let c := { c with W := w }
    let lenW := (lenW + left) % 64
    let data := data.drop left
    if lenW ≠ 0 then some c else do
      let h ← block1 junk c.H c.W
      tail1 junk { c with H := h } data
  else tail1 junk c data

/-- /repo/crc/sha1.c:58-72 `fio_sha1_final`. -/
def final1 (junk : List (BitVec 32)) (c : Ctx1) : Option Ctx1 := do
  let size : BitVec 64 := BitVec.ofNat 64 c.size
  let padlen := st32 (be32 ((size >>> 29).setWidth 32)) ++ st32 (be32 ((size <<< 3).setWidth 32))
  let i := c.size % 64
  let c ← update1 junk c ((padding 64).take (1 + ((55 - (i : Int)) % 64).toNat))
  update1 junk c padlen

/-! ## MD5 -/

/-- /repo/crc/md5.h:11 `F1`. -/
def f1 (x y z : BitVec 32) : BitVec 32 := z ^^^ (x &&& (y ^^^ z))
/-- /repo/crc/md5.h:12 `F2`. -/
def f2 (x y z : BitVec 32) : BitVec 32 := f1 z x y
/-- /repo/crc/md5.h:13 `F3`. -/
def f3 (x y z : BitVec 32) : BitVec 32 := x ^^^ y ^^^ z
/-- /repo/crc/md5.h:14 `F4`. -/
def f4 (x y z : BitVec 32) : BitVec 32 := y ^^^ (x ||| ~~~z)

/-- /repo/crc/md5.h:16-17 `MD5STEP`. -/
def md5step (f : BitVec 32 → BitVec 32 → BitVec 32 → BitVec 32) (w x y z inp : BitVec 32) (s : Nat) : BitVec 32 :=
  let w := w + (f x y z + inp)
  ((w <<< s) ||| (w >>> (32 - s))) + x

/-- Four lines, /repo/crc/md5.c:16-19: index of the word, constant and rotation of each. -/
def quad (f : BitVec 32 → BitVec 32 → BitVec 32 → BitVec 32) (inp : Nat → BitVec 32)
    (q0 q1 q2 q3 : Nat × BitVec 32 × Nat) (r : Regs4) : Regs4 :=
  let ⟨a, b, c, d⟩ := r
  let a := md5step f a b c d (inp q0.1 + q0.2.1) q0.2.2
  let d := md5step f d a b c (inp q1.1 + q1.2.1) q1.2.2
  let c := md5step f c d a b (inp q2.1 + q2.2.1) q2.2.2
  let b := md5step f b c d a (inp q3.1 + q3.2.1) q3.2.2
  ⟨a, b, c, d⟩

/-- /repo/crc/md5.c:16-82: the 64 lines. -/
def rounds5 (inp : Nat → BitVec 32) (r : Regs4) : Regs4 :=
  -- lines 16-19
  let r := quad f1 inp (0, 0xd76aa478#32, 7) (1, 0xe8c7b756#32, 12) (2, 0x242070db#32, 17) (3, 0xc1bdceee#32,
    22) r
  -- lines 20-23
  let r := quad f1 inp (4, 0xf57c0faf#32, 7) (5, 0x4787c62a#32, 12) (6, 0xa8304613#32, 17) (7, 0xfd469501#32,
    22) r
  -- lines 24-27
  let r := quad f1 inp (8, 0x698098d8#32, 7) (9, 0x8b44f7af#32, 12) (10, 0xffff5bb1#32, 17) (11, 0x895cd7be#32,
    22) r
  -- lines 28-31
  let r := quad f1 inp (12, 0x6b901122#32, 7) (13, 0xfd987193#32, 12) (14, 0xa679438e#32, 17) (15,
    0x49b40821#32, 22) r
  -- lines 33-36
  let r := quad f2 inp (1, 0xf61e2562#32, 5) (6, 0xc040b340#32, 9) (11, 0x265e5a51#32, 14) (0, 0xe9b6c7aa#32,
    20) r
  -- lines 37-40
  let r := quad f2 inp (5, 0xd62f105d#32, 5) (10, 0x02441453#32, 9) (15, 0xd8a1e681#32, 14) (4, 0xe7d3fbc8#32,
    20) r
  -- lines 41-44
  let r := quad f2 inp (9, 0x21e1cde6#32, 5) (14, 0xc33707d6#32, 9) (3, 0xf4d50d87#32, 14) (8, 0x455a14ed#32,
    20) r
  -- lines 45-48
  let r := quad f2 inp (13, 0xa9e3e905#32, 5) (2, 0xfcefa3f8#32, 9) (7, 0x676f02d9#32, 14) (12, 0x8d2a4c8a#32,
    20) r
  -- lines 50-53
  let r := quad f3 inp (5, 0xfffa3942#32, 4) (8, 0x8771f681#32, 11) (11, 0x6d9d6122#32, 16) (14, 0xfde5380c#32,
    23) r
  -- lines 54-57
  let r := quad f3 inp (1, 0xa4beea44#32, 4) (4, 0x4bdecfa9#32, 11) (7, 0xf6bb4b60#32, 16) (10, 0xbebfbc70#32,
    23) r
  -- lines 58-61
  let r := quad f3 inp (13, 0x289b7ec6#32, 4) (0, 0xeaa127fa#32, 11) (3, 0xd4ef3085#32, 16) (6, 0x04881d05#32,
    23) r
  -- lines 62-65
  let r := quad f3 inp (9, 0xd9d4d039#32, 4) (12, 0xe6db99e5#32, 11) (15, 0x1fa27cf8#32, 16) (2, 0xc4ac5665#32,
    23) r
  -- lines 67-70
  let r := quad f4 inp (0, 0xf4292244#32, 6) (7, 0x432aff97#32, 10) (14, 0xab9423a7#32, 15) (5, 0xfc93a039#32,
    21) r
  -- lines 71-74
  let r := quad f4 inp (12, 0x655b59c3#32, 6) (3, 0x8f0ccc92#32, 10) (10, 0xffeff47d#32, 15) (1, 0x85845dd1#32,
    21) r
  -- lines 75-78
  let r := quad f4 inp (8, 0x6fa87e4f#32, 6) (15, 0xfe2ce6e0#32, 10) (6, 0xa3014314#32, 15) (13, 0x4e0811a1#32,
    21) r
  -- lines 79-82
  let r := quad f4 inp (4, 0xf7537e82#32, 6) (11, 0xbd3af235#32, 10) (2, 0x2ad7d2bb#32, 15) (9, 0xeb86d391#32,
    21) r
  r

/-- /repo/crc/md5.c:7-88 `md5_transform`. -/
def transform5 (h : Regs4) (inp : List Byte) : Option Regs4 := do
  let _ ← rd inp 0 64
  let r := rounds5 (ld32 inp) h
  some ⟨h.a + r.a, h.b + r.b, h.c + r.c, h.d + r.d⟩

/-- /repo/crc/md5.h:19-23 `struct fio_md5_ctx`; `block` as bytes. -/
structure Ctx5 where
  hash : Regs4
  block : List Byte
  byteCount : Nat

/-- /repo/crc/md5.c:90-96 `fio_md5_init`.  It leaves `byte_count` alone; the callers (verify.c:809, 1261) start with
zeros. -/
def init5 (block : List Byte) : Ctx5 := ⟨⟨0x67452301#32, 0xefcdab89#32, 0x98badcfe#32, 0x10325476#32⟩, block, 0⟩

/-- The loop of /repo/crc/md5.c:118-123: state, block, what is left of the data. -/
def loop5 : Nat → Regs4 → List Byte → List Byte → Option (Regs4 × List Byte × List Byte)
  | 0, _, _, _ => none
  | n + 1, h, block, data =>
    if data.length ≥ 64 then do
      let block ← cpy block 0 data 0 64
      let h ← transform5 h block
      loop5 n h block (data.drop 64)
    else some (h, block, data)

/-- /repo/crc/md5.c:98-126 `fio_md5_update`. -/
def update5 (c : Ctx5) (data : List Byte) : Option Ctx5 := do
  let avail := 64 - c.byteCount % 64
  let byteCount := (c.byteCount + data.length) % 18446744073709551616
  if avail > data.length then do
    let block ← cpy c.block (64 - avail) data 0 data.length
    some { c with byteCount, block }
  else do
    let block ← cpy c.block (64 - avail) data 0 avail
    let h ← transform5 c.hash block
    let (h, block, data) ← loop5 (data.length + 1) h block (data.drop avail)
    let block ← cpy block 0 data 0 data.length
    some ⟨h, block, byteCount⟩

/-- /repo/crc/md5.c:128-146 `fio_md5_final`. -/
def final5 (c : Ctx5) : Option Ctx5 := do
  let offset := c.byteCount % 64
  let pad : Int := 56 - (offset + 1)
  let block ← put c.block offset [0x80#8]
  let p := offset + 1
  let (hash, block, p, pad) ← if pad < 0 then do
      let block ← put block p (List.replicate (pad + 8).toNat 0#8)
      let hash ← transform5 c.hash block
      some (hash, block, 0, 56)
    else some (c.hash, block, p, pad.toNat)
  let block ← put block p (List.replicate pad 0#8)
  let n : BitVec 64 := BitVec.ofNat 64 c.byteCount
  let block ← put block 56 (st32 ((n <<< 3).setWidth 32))
  let block ← put block 60 (st32 ((n >>> 29).setWidth 32))
  let hash ← transform5 hash block
  some { c with hash, block }

/-! ## SHA-3 -/

/-- /repo/crc/sha3.c:25-34 `keccakf_rndc`. -/
def rndc : List (BitVec 64) :=
  [0x0000000000000001#64, 0x0000000000008082#64, 0x800000000000808a#64, 0x8000000080008000#64,
   0x000000000000808b#64, 0x0000000080000001#64, 0x8000000080008081#64, 0x8000000000008009#64,
   0x000000000000008a#64, 0x0000000000000088#64, 0x0000000080008009#64, 0x000000008000000a#64,
   0x000000008000808b#64, 0x800000000000008b#64, 0x8000000000008089#64, 0x8000000000008003#64,
   0x8000000000008002#64, 0x8000000000000080#64, 0x000000000000800a#64, 0x800000008000000a#64,
   0x8000000080008081#64, 0x8000000000008080#64, 0x0000000080000001#64, 0x8000000080008008#64]

/-- /repo/crc/sha3.c:36-39 `keccakf_rotc`. -/
def rotc : List Nat := [1, 3, 6, 10, 15, 21, 28, 36, 45, 55, 2, 14, 27, 41, 56, 8, 25, 43, 62, 18, 39, 61, 20, 44]

/-- /repo/crc/sha3.c:41-44 `keccakf_piln`. -/
def piln : List Nat := [10, 7, 11, 17, 18, 3, 5, 16, 8, 21, 24, 4, 15, 23, 19, 13, 12, 2, 20, 14, 22, 9, 6, 1]

/-- `st[i]`. -/
def ln (st : List (BitVec 64)) (i : Nat) : BitVec 64 := st.getD i 0

/-- /repo/crc/sha3.c:55-64: theta. -/
def theta (st : List (BitVec 64)) : List (BitVec 64) :=
  let bc := (List.range 5).map fun i => ln st i ^^^ ln st (i + 5) ^^^ ln st (i + 10) ^^^ ln st (i + 15) ^^^ ln st (i + 20)
  (List.range 5).foldl (fun st i =>
    let t := ln bc ((i + 4) % 5) ^^^ rol (ln bc ((i + 1) % 5)) 1
    (List.range 5).foldl (fun st j => st.set (5 * j + i) (ln st (5 * j + i) ^^^ t)) st) st

/-- /repo/crc/sha3.c:66-73: rho and pi. -/
def rhoPi (st : List (BitVec 64)) : List (BitVec 64) :=
  ((List.range 24).foldl (fun (x : List (BitVec 64) × BitVec 64) i =>
    let j := piln.getD i 0
    (x.1.set j (rol x.2 (rotc.getD i 0)), ln x.1 j)) (st, ln st 1)).1

/-- /repo/crc/sha3.c:75-82: chi. -/
def chi (st : List (BitVec 64)) : List (BitVec 64) :=
  (List.range 5).foldl (fun st j =>
    let bc := (List.range 5).map fun i => ln st (5 * j + i)
    (List.range 5).foldl (fun st i =>
      st.set (5 * j + i) (ln st (5 * j + i) ^^^ (~~~ln bc ((i + 1) % 5) &&& ln bc ((i + 2) % 5)))) st) st

/-- /repo/crc/sha3.c:53-86: one round. -/
def keccakRound (st : List (BitVec 64)) (round : Nat) : List (BitVec 64) :=
  let st := chi (rhoPi (theta st))
  st.set 0 (ln st 0 ^^^ rndc.getD round 0)

/-- /repo/crc/sha3.c:48-87 `keccakf`. -/
def keccakf (st : List (BitVec 64)) : List (BitVec 64) := (List.range 24).foldl keccakRound st

/-- /repo/crc/sha3.h:21-31 `struct fio_sha3_ctx`. -/
structure Ctx3 where
  st : List (BitVec 64)
  mdLen : Nat
  rsiz : Nat
  rsizw : Nat
  part : Nat
  buf : List Byte

/-- /repo/crc/sha3.c:89-97 `fio_sha3_init`; the buffer has 144 bytes (sha3.h:28). -/
def init3 (digestSz : Nat) : Ctx3 :=
  ⟨List.replicate 25 0, digestSz, 200 - 2 * digestSz, (200 - 2 * digestSz) / 8, 0, List.replicate 144 0⟩

/-- /repo/crc/sha3.c:139-141 and 163-166: exclusive or with a block, and the permutation. -/
def absorb3 (rsizw : Nat) (st : List (BitVec 64)) (src : List Byte) : Option (List (BitVec 64)) := do
  let _ ← rd src 0 (8 * rsizw)
  some (keccakf ((List.range rsizw).foldl (fun st i => st.set i (ln st i ^^^ ld64 src i)) st))

/-- The loop of /repo/crc/sha3.c:136-145; the result is the state and `done`. -/
def loop3 (rsiz rsizw : Nat) (data : List Byte) : Nat → List (BitVec 64) → List Byte → Nat →
    Option (List (BitVec 64) × Nat)
  | 0, _, _, _ => none
  | n + 1, st, src, done => do
    let st ← absorb3 rsizw st src
    let done := u32 (done + rsiz)
    if u32 (done + (rsiz - 1)) < data.length then loop3 rsiz rsizw data n st (data.drop done) done else some (st, done)

/-- /repo/crc/sha3.c:119-153 `fio_sha3_update`. -/
def update3 (c : Ctx3) (data : List Byte) : Option Ctx3 := do
  let len := data.length
  if u32 (c.part + len) > c.rsiz - 1 then do
    let (buf, src, done) ← if c.part ≠ 0 then do
        let done := u32 (4294967296 - c.part)
        let buf ← cpy c.buf c.part data 0 (u32 (done + c.rsiz))
        some (buf, buf, done)
      else some (c.buf, data, 0)
    let (st, done) ← loop3 c.rsiz c.rsizw data (len + 1) c.st src done
    let buf ← cpy buf 0 data done (len - done)
    some { c with st, buf, part := len - done }
  else do
    let buf ← cpy c.buf c.part data 0 len
    some { c with buf, part := c.part + len }

/-- /repo/crc/sha3.c:155-172 `fio_sha3_final`: the digest. -/
def final3 (c : Ctx3) : Option (List Byte) := do
  let inlen := c.part
  let buf ← put c.buf inlen [0x06#8]
  let inlen := inlen + 1
  let buf ← put buf inlen (List.replicate (c.rsiz - inlen) 0#8)
  let last ← buf[c.rsiz - 1]?
  let buf ← put buf (c.rsiz - 1) [last ||| 0x80#8]
  let st ← absorb3 c.rsizw c.st buf
  rd (st.flatMap st64) 0 c.mdLen

end Fio.Hash
