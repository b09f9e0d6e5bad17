import Verif.Buf.Model
/-
What the buffers of the I/O units have to satisfy.
-/
namespace Fio.Buf

/-- The bytes behind `io_u->buf` that the job uses for its I/O: reads and writes of up to their
largest block size; blocks of the trim size, if trimmed ranges are read back or written again (not
when a log is replayed, which gives its own sizes); the list of ranges (16 bytes each) of a
multi-range trim. -/
def Cfg.need (c : Cfg) : Nat :=
  max (max (if c.rd then c.rbs else 0) (if c.wr then c.wbs else 0))
    (max (if (c.rd ∨ c.wr) ∧ (c.trimVerify ∨ (c.tr ∧ c.wr ∧ ¬ c.readIolog)) then c.tbs else 0)
      (if c.tr ∧ 1 < c.numRange then 16 * c.numRange else 0))

/-- The ranges `[p, p + n)` and `[q, q + n)` have no byte in common. -/
def Apart (p q n : Nat) : Prop := p + n ≤ q ∨ q + n ≤ p

/-- Every unit has a buffer if the job needs one; the buffers of all units, and what is written into
them at the start, lie inside the allocation and apart from each other. -/
structure Good (c : Cfg) (base : Nat) : Prop where
  inside : ∀ i, i < c.depth → c.noio = false → 0 < c.need →
    ∃ p, c.ioBuf base i = some p ∧ base ≤ p ∧ p + c.need ≤ base + c.allocLen ∧
      p + c.fillLen ≤ base + c.allocLen
  apart : ∀ i j p q, i < c.depth → j < c.depth → i ≠ j → c.ioBuf base i = some p →
    c.ioBuf base j = some q → Apart p q c.need ∧ Apart p q c.fillLen

/-- The system gave the job what it asked for. -/
def Granted (c : Cfg) (base : Nat) : Prop := 0 < c.allocLen ∧ base + c.allocLen < 2 ^ 64

/-- The machine: pages are a power of two. -/
def PageOk (c : Cfg) : Prop := ∃ j, j < 32 ∧ c.page = 2 ^ j

/-- The sizes are within the range of the types the code computes in: everything together fits 32
bits when shared memory or huge pages are used, 64 bits otherwise. -/
def Roomy (c : Cfg) : Prop :=
  c.stride * c.depth + 2 * c.page + 2 * c.memAlign + 2 * c.hp <
    (if c.mem = .shm ∨ c.mem = .shmhuge ∨ c.mem = .mmaphuge then 2 ^ 32 else 2 ^ 64)

/-- A multi-range trim job does nothing else. -/
def Pure (c : Cfg) : Prop := c.multi = true → c.rd = false ∧ c.wr = false

end Fio.Buf
