import Verif.Common.Le
import Verif.Crc.Serial
/-
What the protection information of an I/O has to be (NVM Command Set specification, end-to-end data
protection), written down for the bytes of the blocks and not for the buffers of the program.
-/
namespace Fio.Nvme.Spec
open Fio Fio.Crc

/-- The big endian number in some bytes. -/
def num : List Byte → Nat := List.foldl (fun v b => v * 256 + b.toNat) 0

/-- A format with protection information. -/
structure Fmt where
  /-- data bytes of a block -/
  ls : Nat
  /-- metadata bytes of a block -/
  ms : Nat
  /-- the metadata follows the data of each block in one buffer -/
  ext : Bool
  /-- the protection information is the first part of the metadata, not the last -/
  first : Bool
  /-- guards of 64 bits, not 16 -/
  wide : Bool
  /-- type of protection: 1, 2 or 3 -/
  type : Nat
  deriving DecidableEq, Repr

variable (f : Fmt)

/-- Bytes of protection information. -/
def Fmt.size : Nat := if f.wide then 16 else 8

/-- Bytes of metadata before the protection information. -/
def Fmt.piOff : Nat := if f.first then 0 else f.ms - f.size

/-- The protection information fits. -/
structure Fmt.Ok : Prop where
  fits : f.size ≤ f.ms
  type : f.type = 1 ∨ f.type = 2 ∨ f.type = 3

/-- Data of block `i`. -/
def Fmt.data (i : Nat) (buf : List Byte) : List Byte :=
  if f.ext then (buf.drop (i * (f.ls + f.ms))).take f.ls else (buf.drop (i * f.ls)).take f.ls

/-- Metadata of block `i`. -/
def Fmt.meta (i : Nat) (buf md : List Byte) : List Byte :=
  if f.ext then (buf.drop (i * (f.ls + f.ms) + f.ls)).take f.ms else (md.drop (i * f.ms)).take f.ms

/-- Protection information of block `i`. -/
def Fmt.pi (i : Nat) (buf md : List Byte) : List Byte := ((f.meta i buf md).drop f.piOff).take f.size

/-- Metadata behind the protection information of block `i`. -/
def Fmt.behind (i : Nat) (buf md : List Byte) : List Byte := (f.meta i buf md).drop (f.piOff + f.size)

/-- The bytes of block `i` the guard is computed from: the data and the metadata before the
protection information. -/
def Fmt.covered (i : Nat) (buf md : List Byte) : List Byte :=
  f.data i buf ++ (f.meta i buf md).take f.piOff

/-- Fields of the protection information. -/
def Fmt.guard (i : Nat) (buf md : List Byte) : List Byte := (f.pi i buf md).take (if f.wide then 8 else 2)
def Fmt.app (i : Nat) (buf md : List Byte) : List Byte := ((f.pi i buf md).drop (if f.wide then 8 else 2)).take 2
def Fmt.ref (i : Nat) (buf md : List Byte) : List Byte := (f.pi i buf md).drop (if f.wide then 10 else 4)

/-- The CRC of the standard, bit by bit: T10 DIF (0x8BB7, most significant bit first, start 0), or
the 64 bit CRC of NVMe (0x9A6C9329AC4BC9B5 reflected, start and final complement). -/
def Fmt.crc (l : List Byte) : Nat :=
  if f.wide then (~~~ serialR pNvme (~~~ 0#64) (bitsR l)).toNat else (serialL pT10 0#16 (bitsL l)).toNat

/-- Bits of the reference tag. -/
def Fmt.refBits : Nat := if f.wide then 48 else 32

/-- What is to be checked. -/
structure Chk where
  guard : Bool
  app : Bool
  ref : Bool

/-- Checking of the block is disabled by its tags: application tag all ones, and for type 3 the
reference tag as well. -/
def Fmt.Escaped (i : Nat) (buf md : List Byte) : Prop :=
  num (f.app i buf md) = 0xFFFF ∧ (f.type = 3 → num (f.ref i buf md) = 2 ^ f.refBits - 1)

/-- The fields of the block that are to be checked are right: `lba` is the address of the block. -/
structure Fmt.Right (c : Chk) (apptag mask lba i : Nat) (buf md : List Byte) : Prop where
  guard : c.guard = true → num (f.guard i buf md) = f.crc (f.covered i buf md)
  app : c.app = true → num (f.app i buf md) &&& mask = apptag &&& mask
  ref : c.ref = true → f.type ≠ 3 → num (f.ref i buf md) = lba % 2 ^ f.refBits

/-- The buffers hold `n` blocks. -/
def Fmt.Holds (n : Nat) (buf md : List Byte) : Prop :=
  if f.ext then n * (f.ls + f.ms) ≤ buf.length else n * f.ls ≤ buf.length ∧ n * f.ms ≤ md.length

end Fio.Nvme.Spec
