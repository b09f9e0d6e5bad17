import Verif.Amount.Model

namespace Fio.Amount

/-- The amount asked for: `io_size` if given, or `size`, in each loop. -/
def want (c : Cfg) : Nat := (if c.ioSize ≠ 0 then c.ioSize else c.size) * (if c.loops = 0 then 1 else c.loops)

/-- The environment's I/Os are not empty and not larger than the largest block; all count. -/
def Plain (c : Cfg) (as : List Ans) : Prop :=
  ∀ a ∈ as, ∀ i, a.io = some i → 0 < i.len ∧ i.len ≤ c.maxBs ∧ i.counted = true

/-- get_io_u delivers as long as the current loop has not covered `size`. -/
def Delivers (c : Cfg) (s : St) (as : List Ans) : Prop :=
  ∀ pre a post t, as = pre ++ a :: post → runs c s pre = some t → t.pc = .io → a.io = none → c.size ≤ t.call

/-- Numbers do not wrap around. -/
def Fits (c : Cfg) : Prop :=
  want c < 18446744073709551616 ∧ c.limit < 18446744073709551615 ∧ c.numberIos * c.tdLoops < 18446744073709551616

end Fio.Amount
