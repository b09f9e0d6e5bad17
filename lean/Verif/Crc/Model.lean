import Verif.Crc.Tables
/-
The table-driven CRC routines of crc/*.c, on lists of bytes.  The hardware versions
(crc/crc32c-intel.c, crc/crc32c-arm64.c, isa-l) are not modelled.
-/
namespace Fio.Crc

abbrev Byte := BitVec 8

/-- Table lookup.  The index is always below 256. -/
def lookup (w : Nat) (t : List Nat) (i : Nat) : BitVec w := BitVec.ofNat w (t.getD i 0)

/-- crc32c_sw, crc/crc32c.c:116-124. -/
def crc32c (data : List Byte) : BitVec 32 :=
  data.foldl (fun crc d =>
    lookup 32 crc32cTable ((crc ^^^ d.zeroExtend 32) &&& 0xff#32).toNat ^^^ (crc >>> 8)) (~~~ 0#32)

/-- fio_crc32, crc/crc32.c:75-84. -/
def crc32 (data : List Byte) : BitVec 32 :=
  data.foldl (fun crc d =>
    (crc <<< 8) ^^^ lookup 32 crc32Table (((crc >>> 24) ^^^ d.zeroExtend 32) &&& 0xff#32).toNat) 0#32

/-- fio_crc16, crc/crc16.c:46-54, with crc16_byte, crc/crc16.h:24-28. -/
def crc16 (data : List Byte) : BitVec 16 :=
  data.foldl (fun crc d =>
    (crc >>> 8) ^^^ lookup 16 crc16Table ((crc ^^^ d.zeroExtend 16) &&& 0xff#16).toNat) 0#16

/-- fio_crc7, crc/crc7.c:46-53, with crc7_byte, crc/crc7.h:6-9.  `crc << 1` is an int; the index has
nine bits, of which the top one is always zero (proved, the lookup would otherwise be out of bounds and
give 0 here). -/
def crc7 (data : List Byte) : BitVec 8 :=
  data.foldl (fun crc d =>
    lookup 8 crc7Table ((crc.zeroExtend 16 <<< 1) ^^^ d.zeroExtend 16).toNat) 0#8

/-- fio_crc64, crc/crc64.c:107-115. -/
def crc64 (data : List Byte) : BitVec 64 :=
  data.foldl (fun crc d =>
    lookup 64 crc64Table ((crc ^^^ d.zeroExtend 64) &&& 0xff#64).toNat ^^^ (crc >>> 8)) 0#64

/-- fio_crc64_nvme, crc/crc64.c:135-147. -/
def crc64nvme (crc : BitVec 64) (data : List Byte) : BitVec 64 :=
  ~~~ data.foldl (fun crc d =>
    (crc >>> 8) ^^^ lookup 64 crc64nvmeTable ((crc &&& 0xff#64) ^^^ d.zeroExtend 64).toNat) (~~~ crc)

/-- fio_crc_t10dif, crc/crct10dif_common.c:79-88. -/
def crcT10dif (crc : BitVec 16) (data : List Byte) : BitVec 16 :=
  data.foldl (fun crc d =>
    (crc <<< 8) ^^^ lookup 16 t10difTable (((crc >>> 8) ^^^ d.zeroExtend 16) &&& 0xff#16).toNat) crc

end Fio.Crc
