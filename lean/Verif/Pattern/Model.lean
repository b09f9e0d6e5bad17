import Verif.Common.Mem
/-
Pattern fill and check: lib/pattern.c, and their use in verify.c.

Buffers are lists of bytes.  `none` is undefined behaviour (an access outside a buffer, memcpy with
overlapping ranges, use of an uninitialised variable) or a loop that never ends; in functions returning
`Option Bool`, `some true` is the return value 0 and `some false` an error code.
-/
namespace Fio.Pattern

/-- `memcpy(out + dst, out, len)` within one buffer; the ranges must not overlap. -/
def copyUp (out : List Byte) (dst len : Nat) : Option (List Byte) :=
  if len ≤ dst then (memRead out 0 len).bind fun s => memWrite out dst s else none

/-- The loop of dup_pattern, lib/pattern.c:460-465; `off <<= 1` wraps at 32 bits.  Every round that
copies something decreases `left`, so `left` rounds suffice; a round copying nothing would repeat forever
(fuel exhausted, `none`). -/
def dupLoop : Nat → List Byte → Nat → Nat → Nat → Option (List Byte)
  | _, out, _, 0, _ => some out
  | 0, _, _, _ + 1, _ => none
  | fuel + 1, out, off, left, len =>
    (copyUp out off len).bind fun out =>
      dupLoop fuel out (off * 2 % 2 ^ 32) (left - len) (min (left - len) (off * 2 % 2 ^ 32))

/-- dup_pattern, lib/pattern.c:447-468. -/
def dupPattern (out : List Byte) (patternLen : Nat) : Option (List Byte) :=
  if out.length ≤ patternLen then some out
  else dupLoop (out.length - patternLen) out patternLen (out.length - patternLen)
    (min (out.length - patternLen) patternLen)

/-- cpy_pattern, lib/pattern.c:477-491.  The error return leaves the buffer alone. -/
def cpyPattern (pattern out : List Byte) : Option (List Byte) :=
  if pattern.length = 0 ∨ out.length = 0 then some out
  else
    (memRead pattern 0 (min pattern.length out.length)).bind fun s =>
    (memWrite out 0 s).bind fun out => dupPattern out pattern.length

/-- `memcmp(a + ao, b + bo, n) == 0`. -/
def memEq (a : List Byte) (ao : Nat) (b : List Byte) (bo n : Nat) : Option Bool :=
  (memRead a ao n).bind fun x => (memRead b bo n).bind fun y => some (x == y)

/-- cmp_pattern, lib/pattern.c:505-537; `buf` is the first `len` bytes at the pointer. -/
def cmpPattern (pattern : List Byte) (off : Nat) (buf : List Byte) : Option Bool :=
  let size := pattern.length
  let len := buf.length
  (if size < len then memEq buf 0 buf size (len - size) else some true).bind fun r1 =>
  if r1 = false then some false else
  (if off ≠ 0 then memEq buf 0 pattern off (min len (size - off)) else some true).bind fun r2 =>
  if r2 = false then some false else
  let done := if off ≠ 0 then min len (size - off) else 0
  if len - done ≠ 0 then memEq buf done pattern 0 (min (len - done) (if off ≠ 0 then off else size))
  else some true

/-- The slow path of check_pattern, verify.c:403-420: `true` when no differing byte is found. -/
def slowPath (pattern : List Byte) : List Byte → Nat → Option Bool
  | [], _ => some true
  | b :: buf, mod =>
    match pattern[mod]? with
    | none => none
    | some p => if b ≠ p then some false else slowPath pattern buf (if mod + 1 = pattern.length then 0 else mod + 1)

/-- check_pattern, verify.c:392-424.  The slow path only improves the report: the error code stays set
when it finds nothing. -/
def checkPattern (buf : List Byte) (mod : Nat) (pattern : List Byte) : Option Bool :=
  (cmpPattern pattern mod buf).bind fun rc =>
    if rc then some true else (slowPath pattern buf mod).bind fun _ => some false

/-- The bytes of a 64-bit word in little endian order, `cpu_to_le64` in paste_blockoff, verify.c:1650. -/
def leBytes (x : BitVec 64) : List Byte := (List.range 8).map fun i => (x >>> (8 * i)).truncate 8

/-- paste_format_inplace, lib/pattern.c:546-571, with the only paste function, paste_blockoff,
verify.c:1644-1654 (`desc->len` is 8, options.c:24-28).  A format is given by its offset. -/
def pasteInplace : List Byte → List Nat → BitVec 64 → Option (List Byte)
  | pattern, [], _ => some pattern
  | pattern, f :: fs, x =>
    if pattern.length ≤ f then some pattern
    else (memWrite pattern f ((leBytes x).take (min (min (pattern.length - f) 8) 8))).bind fun pattern =>
      pasteInplace pattern fs x

/-- paste_format, lib/pattern.c:580-600.  `out` is the destination range. -/
def pasteFormat (pattern : List Byte) (fmts : List Nat) (out : List Byte) (x : BitVec 64) : Option (List Byte) :=
  if pattern.length = 0 ∨ out.length = 0 then some out
  else
    let len := min pattern.length out.length
    (memRead pattern 0 len).bind fun s =>
    (memWrite out 0 s).bind fun out =>
    (pasteInplace (out.take len) fmts x).bind fun head =>
    dupPattern (head ++ out.drop len) pattern.length

/-- The loop of fill_verify_pattern, verify.c:84-94, for `p = io_u->buf + pos`.  At most `len` rounds,
as every round fills at least one byte (a round with `bytes_todo = 0` would not end, `none`). -/
def fillLoop (pattern : List Byte) (fmts : List Nat) (interval len : Nat) :
    Nat → List Byte → Nat → Nat → BitVec 64 → Option (List Byte)
  | fuel, buf, pos, done, offset =>
    if done < len then
      match fuel with
      | 0 => none
      | fuel + 1 =>
        if interval = 0 then none else
        let todo := if pos % interval = 0 then interval else pos % interval
        let todo := min todo (len - done)
        (memRead buf pos todo).bind fun out =>
        (pasteFormat pattern fmts out offset).bind fun out =>
        (memWrite buf pos out).bind fun buf =>
        fillLoop pattern fmts interval len fuel buf (pos + todo) (done + todo) (offset + BitVec.ofNat 64 interval)
    else some buf

/-- fill_verify_pattern, verify.c:50-98, for a job with a pattern, `p = io_u->buf` (as in all its
callers) and a buffer that cannot be taken over from an earlier fill (verify.c:75-79 not taken). -/
def fillVerifyPattern (pattern : List Byte) (fmts : List Nat) (interval : Nat) (buf : List Byte) (offset : BitVec 64) :
    Option (List Byte) :=
  fillLoop pattern fmts (if interval = 0 then buf.length else interval) buf.length buf.length buf 0 0 offset

/-- The loop of verify_io_u_pattern, verify.c:492-511. -/
def verifyLoop (fmts : List Nat) (interval len : Nat) (buf : List Byte) :
    Nat → List Byte → Nat → Nat → Nat → Nat → BitVec 64 → Option Bool
  | fuel, pattern, pos, done, todo, mod, offset =>
    if done < len then
      match fuel with
      | 0 => none
      | fuel + 1 =>
        (if interval ≠ 0 then pasteInplace pattern fmts offset else some pattern).bind fun pattern =>
        (memRead buf pos todo).bind fun b =>
        (checkPattern b mod pattern).bind fun rc =>
        if rc then
          if len ≤ done + todo then some true
          else verifyLoop fmts interval len buf fuel pattern (pos + todo) (done + todo)
            (min (len - (done + todo)) interval) 0 (offset + BitVec.ofNat 64 interval)
        else some false
    else none

/-- verify_io_u_pattern, verify.c:439-517, for header number `num`, increment `inc` (get_hdr_inc) and
header size `hs`; sizes are below 2^32 so that the `unsigned int` products do not wrap.  When there is no
payload (`inc = hs`) the result is the uninitialised `rc`: `none`. -/
def verifyIoUPattern (pattern : List Byte) (fmts : List Nat) (interval : Nat) (buf : List Byte) (inc hs num : Nat)
    (offset : BitVec 64) : Option Bool :=
  if pattern.length = 0 then none else
  (if interval = 0 then pasteInplace pattern fmts offset else some pattern).bind fun pattern =>
  let len := inc - hs
  let extent := inc * num + hs
  if interval ≠ 0 then
    let pmod := extent % interval
    verifyLoop fmts interval len buf len pattern extent 0 (min len (interval - pmod)) (pmod % pattern.length)
      (offset + BitVec.ofNat 64 (extent / interval * interval))
  else verifyLoop fmts interval len buf len pattern extent 0 len (extent % pattern.length) offset

end Fio.Pattern
