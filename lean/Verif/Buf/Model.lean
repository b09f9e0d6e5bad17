import Verif.Common.Mem
import Verif.Common.Le
/-
Memory for I/O: the layout of the data buffers of the I/O units (`init_io_u_buffers`,
backend.c:1575-1681, with `allocate_io_mem`, memory.c:295-343, and the allocators it calls), and
aligned allocation of small objects (lib/memalign.c).

Addresses and sizes are natural numbers; the arithmetic of the C types is written out
(`% 2^64` for `size_t`, `unsigned long long` and pointers, `% 2^32` for `unsigned int`).
-/
namespace Fio.Buf

/-- Where the memory comes from (`mem_type`, memory.c:315-334); `engine`: the engine's own hook, and
`cuda` (memory.c:213-285), both of which get the whole size. -/
inductive MemType where
  | malloc | shm | shmhuge | mmap | mmaphuge | mmapshared | engine
deriving DecidableEq, Repr

/-- The options and engine flags the functions look at. -/
structure Cfg where
  /-- `max_bs[DDIR_READ]`, `max_bs[DDIR_WRITE]`, `max_bs[DDIR_TRIM]` -/
  rbs : Nat
  wbs : Nat
  tbs : Nat
  /-- `iodepth` -/
  depth : Nat
  /-- `num_range` -/
  numRange : Nat
  /-- `td_read`, `td_write`, `td_trim`: bits of `td_ddir` (io_ddir.h:56-61) -/
  rd : Bool
  wr : Bool
  tr : Bool
  /-- `TD_F_READ_IOLOG` -/
  readIolog : Bool
  /-- `td->trim_verify && td->o.trim_zero` -/
  trimVerify : Bool
  /-- `FIO_NOIO` -/
  noio : Bool
  odirect : Bool
  /-- `FIO_RAWIO` -/
  rawio : Bool
  /-- `FIO_MEMALIGN` -/
  memalign : Bool
  /-- `iomem_align` -/
  memAlign : Nat
  /-- `page_size`; `page_mask` is one less (libfio.c:448-449) -/
  page : Nat
  /-- `hugepage-size` -/
  hp : Nat
  mem : MemType

/-- `max_bs` (backend.c:1600-1605; `td_max_bs`, `td_max_rw_bs`, fio.h:880-891). -/
def Cfg.maxBs (c : Cfg) : Nat :=
  if c.trimVerify || (!c.readIolog && (c.tr && c.wr)) then max c.tbs (max c.rbs c.wbs)
  else max c.rbs c.wbs

/-- `td_trim(td) && td->o.num_range > 1` (backend.c:1611,1622,1674). -/
def Cfg.multi (c : Cfg) : Bool := c.tr && decide (1 < c.numRange)

/-- How far apart the buffers are: `trim_bs` or `max_bs` (backend.c:1612,1674-1677).
`sizeof(struct trim_range)` is 16 (fio.h:79-82). -/
def Cfg.stride (c : Cfg) : Nat := if c.multi then c.numRange * 16 else c.maxBs

/-- The condition for aligning the first buffer (backend.c:1631-1632,1650-1651). -/
def Cfg.aligned (c : Cfg) : Bool := c.odirect || decide (c.memAlign ≠ 0) || c.rawio

/-- `MEM_SHMHUGE` or `MEM_MMAPHUGE` (backend.c:1635). -/
def Cfg.huge (c : Cfg) : Bool := c.mem == .shmhuge || c.mem == .mmaphuge

/-- `orig_buffer_size` (backend.c:1607-1640).  `hugepage_size` is an `unsigned int`, so the mask
`~(hugepage_size - 1)` has 32 bits. -/
def Cfg.origSize (c : Cfg) : Nat :=
  let s0 := c.stride * c.depth % 2 ^ 64
  let s1 := if c.aligned then (s0 + (c.page - 1) + c.memAlign) % 2 ^ 64 else s0
  if c.huge then
    let bs := (s1 + (c.hp - 1)) % 2 ^ 64
    bs &&& (2 ^ 32 - 1 - (c.hp - 1))
  else s1

/-- `data_xfer` (backend.c:1621-1623). -/
def Cfg.dataXfer (c : Cfg) : Bool := !(c.noio || !(c.rd || c.wr || c.multi))

/-- `total_mem` in `allocate_io_mem` (memory.c:303-310). -/
def Cfg.totalMem (c : Cfg) : Nat :=
  if c.odirect || decide (c.memAlign ≠ 0) || c.memalign then
    let t := (c.origSize + (c.page - 1)) % 2 ^ 64
    if c.memAlign ≠ 0 ∧ c.page < c.memAlign then (t + (c.memAlign - c.page)) % 2 ^ 64 else t
  else c.origSize

/-- The bytes asked of the system: `alloc_mem_malloc` (memory.c:198-205), `alloc_mem_shm`
(memory.c:63-111; its parameter is an `unsigned int`), `alloc_mem_mmap` (memory.c:124-181). -/
def Cfg.allocLen (c : Cfg) : Nat := match c.mem with
  | .malloc | .mmap | .mmapshared | .engine => c.totalMem
  | .shm => c.totalMem % 2 ^ 32
  | .shmhuge =>
    let t := c.totalMem % 2 ^ 32
    ((t + (c.hp - 1)) % 2 ^ 64 &&& (2 ^ 64 - 1 - (c.hp - 1))) % 2 ^ 32
  | .mmaphuge => (c.totalMem + (c.hp - 1)) % 2 ^ 64 &&& (2 ^ 64 - 1 - (c.hp - 1))

/-- `PTR_ALIGN(ptr, mask)` (fio.h:784-785, lib/memalign.c:7-8). -/
def ptrAlign (ptr mask : Nat) : Nat := (ptr + mask) % 2 ^ 64 &&& (2 ^ 64 - 1 - mask)

/-- The first buffer (backend.c:1650-1654) when the allocation starts at `base`. -/
def Cfg.first (c : Cfg) (base : Nat) : Nat :=
  if c.aligned then (ptrAlign base (c.page - 1) + c.memAlign) % 2 ^ 64 else base

/-- `io_u->buf` of unit `i` (backend.c:1656-1678): `p` moves on by the stride once per unit. -/
def Cfg.buf (c : Cfg) (base : Nat) : Nat → Nat
  | 0 => c.first base
  | i + 1 => (c.buf base i + c.stride) % 2 ^ 64

/-- `io_u->buf`, set only if the job transfers data (backend.c:1660-1661); `none`: NULL. -/
def Cfg.ioBuf (c : Cfg) (base i : Nat) : Option Nat :=
  if c.dataXfer then some (c.buf base i) else none

/-- The bytes written into each buffer at the start (backend.c:1664-1672). -/
def Cfg.fillLen (c : Cfg) : Nat := if c.wr then c.maxBs else 0

/-! ### lib/memalign.c -/

/-- The memory of one allocation: where it starts, and its bytes. -/
structure Block where
  base : Nat
  bytes : List Byte

/-- The size handed to the allocator: `size + alignment + sizeof(*f) - 1` (lib/memalign.c:21). -/
def reqLen (alignment size : Nat) : Nat := (size + alignment + 4 + (2 ^ 64 - 1)) % 2 ^ 64

/-- `__fio_memalign` (lib/memalign.c:14-29) given the block the allocator returned: the pointer, and
the block with the footer written; `none`: the assertion fails, or the footer lies outside the
block.  The footer is one `unsigned int` right behind the object, in the machine's (little endian)
byte order. -/
def memalign (alignment size : Nat) (b : Block) : Option (Nat × Block) :=
  if alignment &&& ((alignment + (2 ^ 64 - 1)) % 2 ^ 64) ≠ 0 then none else
  let mask := (alignment + (2 ^ 64 - 1)) % 2 ^ 64
  let ret := ptrAlign b.base mask
  let f := (ret + size) % 2 ^ 64
  if f < b.base then none else
  (memWrite b.bytes (f - b.base) (le 4 ((ret + 2 ^ 64 - b.base) % 2 ^ 64))).map
    fun bytes => (ret, ⟨b.base, bytes⟩)

/-- `__fio_memfree` (lib/memalign.c:31-36): the pointer handed to `free`; `none`: the footer is read
outside the block. -/
def memfree (ptr size : Nat) (b : Block) : Option Nat :=
  let f := (ptr + size) % 2 ^ 64
  if f < b.base then none else
  (memRead b.bytes (f - b.base) 4).map fun l => (ptr + 2 ^ 64 - fromLe l) % 2 ^ 64

end Fio.Buf
