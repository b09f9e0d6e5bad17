import Verif.Common.Le

/-!
# What a buffer should contain

Independent of the model: `S k` is the k-th seed of the generator of a job.
-/

namespace Fio.Dedupe.Spec

/-- The multipliers of the buckets. -/
def factor : List Nat := [1, 2, 3, 5, 7, 11, 13, 17, 19, 23, 29, 31, 37, 41, 43, 47]

/-- The 64-bit word `k` of random data of `len` bytes: in whole rounds of `nb` words each word has a
multiplier of its own and grows by a constant factor from round to round; after the last whole round the
first multiplier goes on alone. -/
def word (nb len seed k : Nat) : Nat :=
  let g := 0x61C8864680B583EB
  let full := len / (8 * nb)
  if k < full * nb then seed * factor.getD (k % nb) 0 * g ^ (k / nb) % 2 ^ 64
  else seed * g ^ (full + (k - full * nb)) % 2 ^ 64

/-- Byte `i` of random data of `len` bytes. -/
def randomByte (nb len seed i : Nat) : Byte := BitVec.ofNat 8 (word nb len seed (i / 8) / 256 ^ (i % 8))

/-- Byte `i` of a piece of `len` bytes of which `perc` percent are to be compressible: random bytes, then
the pattern from its start (or zeros). -/
def pieceByte (nb perc : Nat) (pattern : List Byte) (len seed i : Nat) : Byte :=
  let a := len * (100 - perc) / 100
  if i < a then randomByte nb a seed i
  else if pattern = [] then 0
  else pattern.getD ((i - a) % pattern.length) 0

/-- Byte `j` of a buffer of `n` bytes in pieces of `w` bytes, made from the seeds starting with number
`pos`. -/
def bufByte (nb perc : Nat) (pattern : List Byte) (S : Nat → Nat) (w n pos j : Nat) : Byte :=
  pieceByte nb perc pattern (min w (n - j / w * w)) (S (pos + j / w)) (j % w)

/-- The buffer. -/
def buffer (nb perc : Nat) (pattern : List Byte) (S : Nat → Nat) (w n pos : Nat) : List Byte :=
  (List.range n).map (bufByte nb perc pattern S w n pos)

/-- The number of pieces of a buffer. -/
def pieces (w n : Nat) : Nat := (n + w - 1) / w

/-- Size of the pieces: the smallest block size, or the chunk size if that is set and smaller. -/
def pieceSize (minBs chunk : Nat) : Nat := if chunk = 0 then minBs else min minBs chunk

/-- Does the 32-bit random number `r` ask for a repeated buffer, with `p` percent of them? -/
def repeats (p r : Nat) : Prop := 100 * r < p * 2 ^ 32

instance (p r : Nat) : Decidable (repeats p r) := inferInstanceAs (Decidable (_ < _))

/-- The source of a repeated buffer. -/
def repeated (page : Option (Nat → Nat × Nat)) (t u i : Nat) : Nat × Nat :=
  match page with
  | some f => f i
  | none => (t, u)

/-- Where the seeds of each buffer come from: the job and the number of the first seed. A buffer that is
not repeated takes the next seeds of the job `t`, of which `u` have been used. A repeated one takes those
of the page that was drawn or, without a working set (`page` is `none`), those that come next, without
using them up. Buffers are given by size, random number and number of the page. -/
def sources (p : Nat) (page : Option (Nat → Nat × Nat)) (w t : Nat) :
    Nat → List (Nat × Nat × Nat) → List (Nat × Nat)
  | _, [] => []
  | u, (n, r, i) :: l =>
    if repeats p r then repeated page t u i :: sources p page w t u l
    else (t, u) :: sources p page w t (u + pieces w n) l

end Fio.Dedupe.Spec
