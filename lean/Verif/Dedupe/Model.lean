import Verif.Rand.Model
import Verif.Pattern.Model
import Verif.Common.Le

/-!
# The content of write buffers: buffer_compress_percentage and dedupe_percentage

fill_io_buffer and what it calls: io_u.c:2430-2524, lib/rand.c:99-213, dedupe.c:21-75. A function that
fills memory returns the bytes written, from the start of the buffer; their number is the number of bytes
written. All random numbers come from the generators of `Rand.Model`.
-/

namespace Fio.Dedupe

open Rand

/-- __hash_u64, hash.h:54-57. -/
def hash (v : Nat) : Nat := v * 0x61C8864680B583EB % 2 ^ 64

/-- The loop of __fill_random_buf_small, lib/rand.c:105-108, for `n` words; the bytes and the new seed. -/
def smallWords : Nat → Nat → List Byte × Nat
  | 0, s => ([], s)
  | n + 1, s => (le 8 s ++ (smallWords n (hash s)).1, (smallWords n (hash s)).2)

/-- __fill_random_buf_small, lib/rand.c:99-112: the words, and of the last one only a part. -/
def fillSmall (len seed : Nat) : List Byte :=
  let r := smallWords (len / 8) seed
  r.1 ++ le (len % 8) r.2

/-- The array `prime`, lib/rand.c:116-117. -/
def primes : List Nat := [1, 2, 3, 5, 7, 11, 13, 17, 19, 23, 29, 31, 37, 41, 43, 47]

/-- The loop of __fill_random_buf, lib/rand.c:135-140, for `n` rounds; the bytes and the new seeds. -/
def fillRounds : Nat → List Nat → List Byte × List Nat
  | 0, s => ([], s)
  | n + 1, s => (s.flatMap (le 8) ++ (fillRounds n (s.map hash)).1, (fillRounds n (s.map hash)).2)

/-- __fill_random_buf, lib/rand.c:114-143; `nb` is CONFIG_SEED_BUCKETS (2 to 16, configure:3532-3539). -/
def fillRandom (nb len seed : Nat) : List Byte :=
  let rounds := len / 8 / nb
  let r := fillRounds rounds ((primes.take nb).map fun p => seed * p % 2 ^ 64)
  r.1 ++ fillSmall (len - rounds * nb * 8) (r.2.headD 0)

/-- The compressible part, lib/rand.c:162-166 and 199-202. -/
def fillRest (pattern : List Byte) (len : Nat) : Option (List Byte) :=
  if pattern ≠ [] then Pattern.cpyPattern pattern (List.replicate len 0)
  else some (List.replicate len 0)

/-- The loop of __fill_random_buf_percentage, lib/rand.c:172-206; `none` if it never ends. -/
def percLoop (nb seed perc seg : Nat) (pattern : List Byte) : (fuel len : Nat) → Option (List Byte)
  | _, 0 => some []
  | 0, _ + 1 => none
  | fuel + 1, len =>
    let a := if seg * (100 - perc) / 100 > len then len else seg * (100 - perc) / 100
    let left := len - a
    if left = 0 then some (fillRandom nb a seed)
    else
      let b := seg - a
      let b := if b > left then left else if left - b ≤ 8 then left else b
      (fillRest pattern b).bind fun rest =>
        (percLoop nb seed perc seg pattern fuel (left - b)).map fun l => fillRandom nb a seed ++ rest ++ l

/-- __fill_random_buf_percentage, lib/rand.c:154-207. -/
def fillPercent (nb seed perc seg len : Nat) (pattern : List Byte) : Option (List Byte) :=
  if perc = 100 then fillRest pattern len
  else percLoop nb seed perc (if seg > len then len else seg) pattern len len

/-- __get_next_seed, lib/rand.h:153-161, where pointers have 8 bytes. -/
def nextSeed (s : FRand) : Nat × FRand :=
  let a := rand s
  let b := rand a.2
  (a.1.toNat * b.1.toNat % 2 ^ 64, b.2)

/-- The options that are read. -/
structure Cfg where
  /-- CONFIG_SEED_BUCKETS -/
  nb : Nat
  /-- `compress_percentage` after init.c:1023-1031 -/
  compress : Nat
  /-- `compress_chunk` -/
  chunk : Nat
  /-- `dedupe_percentage` -/
  dedupe : Nat
  /-- `dedupe_mode` is DEDUPE_MODE_WORKING_SET -/
  workSet : Bool
  /-- `buffer_pattern`, empty if there is none -/
  pattern : List Byte
  /-- `zero_buffers` -/
  zero : Bool

/-- compress_percentage=100 becomes zero_buffers, init.c:1023-1031. -/
def fixup (c : Cfg) : Cfg := if c.compress = 100 then { c with zero := true, compress := 0 } else c

/-- The random states of a job: buf_state, buf_state_prev, buf_state_ret; the working set. -/
structure St where
  buf : FRand
  prev : FRand
  ret : FRand
  ws : List FRand

/-- The two states get_buf_state can return a pointer to. -/
inductive Which where
  | buf
  | ret
  deriving DecidableEq

/-- Dereferencing the pointer. -/
def St.get (s : St) : Which → FRand
  | .buf => s.buf
  | .ret => s.ret

/-- Storing through the pointer. -/
def St.set (s : St) (w : Which) (x : FRand) : St :=
  match w with
  | .buf => { s with buf := x }
  | .ret => { s with ret := x }

/-- `rand_between(&td->dedupe_state, 1, 100)`, io_u.c:2446; dedupe_state is a 32-bit generator
(init.c:1225) and `r` its next number. -/
def draw100 (r : Nat) : Nat := 1 + (scaleInt32 100 r).getD 0

/-- get_buf_state, io_u.c:2434-2469; `r` is the random number for the choice, `i` the index drawn
(io_u.c:2460). `none` is an access outside of the working set. -/
def getBufState (c : Cfg) (s : St) (r i : Nat) : Option (St × Which) :=
  if c.dedupe = 0 then some (s, .buf)
  else if c.dedupe = 100 then some ({ s with prev := s.buf }, .buf)
  else if draw100 r ≤ c.dedupe then
    if c.workSet then
      match s.ws[i]? with
      | none => none
      | some x => some ({ s with ret := x }, .ret)
    else some ({ s with ret := s.prev }, .ret)
  else some (s, .buf)

/-- save_buf_state, io_u.c:2471-2477. -/
def saveBufState (c : Cfg) (s : St) (w : Which) : St :=
  if c.dedupe = 100 then s.set w s.prev
  else match w with
    | .buf => { s with prev := s.buf }
    | .ret => s

/-- min_not_zero, minmax.h. -/
def minNotZero (a b : Nat) : Nat := if a = 0 then b else if b = 0 then a else min a b

/-- The loop of fill_io_buffer, io_u.c:2493-2517, after the state has been chosen. One round writes at
least a byte if `left` is not 0; `left -= this_write` wraps. -/
def chunkLoop (c : Cfg) (w : Which) : (fuel : Nat) → (minWrite left : Nat) → St → Option (St × List Byte)
  | 0, _, _, _ => none
  | fuel + 1, minWrite, left, s =>
    let minWrite := min minWrite left
    let n := minNotZero minWrite c.chunk
    let x := nextSeed (s.get w)
    match fillPercent c.nb x.1 c.compress n n c.pattern with
    | none => none
    | some bytes =>
      let s := saveBufState c (s.set w x.2) w
      let left := (left + (2 ^ 64 - n)) % 2 ^ 64
      if left = 0 then some (s, bytes)
      else (chunkLoop c w fuel minWrite left s).map fun p => (p.1, bytes ++ p.2)

/-- fill_io_buffer, io_u.c:2479-2524, for memory of the CPU. -/
def fillIo (c : Cfg) (minWrite maxBs : Nat) (s : St) (r i : Nat) : Option (St × List Byte) :=
  if c.compress ≠ 0 ∨ c.dedupe ≠ 0 then
    (getBufState c s r i).bind fun p => chunkLoop c p.2 maxBs minWrite maxBs p.1
  else if c.pattern ≠ [] then (fillRest c.pattern maxBs).map fun b => (s, b)
  else if c.zero then some (s, List.replicate maxBs 0)
  else (getBufState c s r i).map fun p =>
    (p.1.set p.2 (nextSeed (p.1.get p.2)).2, fillRandom c.nb maxBs (nextSeed (p.1.get p.2)).1)

/-- The buffers of a job, one after the other: for each its size and the random numbers. -/
def fills (c : Cfg) (minWrite : Nat) : St → List (Nat × Nat × Nat) → Option (List (List Byte))
  | _, [] => some []
  | s, (n, r, i) :: l =>
    (fillIo c minWrite n s r i).bind fun p => (fills c minWrite p.1 l).map fun bs => p.2 :: bs

/-- `n` times __get_next_seed, dedupe.c:55-56. -/
def skip : Nat → FRand → FRand
  | 0, s => s
  | n + 1, s => skip n (nextSeed s).2

/-- The loop of init_dedupe_working_set_seeds, dedupe.c:49-72: entries `i` to `i + n - 1`. `bufs` are the
buf_states of all jobs; `none` if the job looked for is not there. -/
def wsLoop (bufs : List FRand) (glob : Bool) (adv perSeed : Nat) :
    (n i tindex : Nat) → FRand → Option (List FRand)
  | 0, _, _, _ => some []
  | n + 1, i, tindex, s =>
    let s := skip adv s
    if glob ∧ i % perSeed = 0 then
      match bufs[(tindex + 1) % bufs.length]? with
      | none => none
      | some s => (wsLoop bufs glob adv perSeed n (i + 1) (tindex + 1) s).map (s :: ·)
    else (wsLoop bufs glob adv perSeed n (i + 1) tindex s).map (s :: ·)

/-- `td->num_unique_pages`, dedupe.c:39. -/
def numUnique (size wsPerc minBs : Nat) : Nat := size * wsPerc % 2 ^ 64 / 100 / minBs

/-- init_dedupe_working_set_seeds, dedupe.c:21-75, for the job `t` (`thread_number - 1`). `none` if the
first entry is written outside of the array. -/
def initWs (c : Cfg) (bufs : List FRand) (t : Nat) (glob : Bool) (size wsPerc minBs : Nat) :
    Option (List FRand) :=
  let adv := minBs / minNotZero minBs c.chunk
  let n := numUnique size wsPerc minBs
  let perSeed := max (n / bufs.length) 1
  if n = 0 then none
  else (bufs[t]?).bind fun s => (wsLoop bufs glob adv perSeed (n - 1) 1 t s).map (s :: ·)

end Fio.Dedupe
