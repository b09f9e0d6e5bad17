/-!
# What a log of samples looks like when it is written (C101)

A line per sample: time, value, with `log_max=both` the maximum, direction, block size, with `log_offset` the offset, the priority (or
whether it is of the real time class), with `log_issue_time` the time of issue.  This file does not use the model.
-/

namespace Fio.NetLog

/-- What a log records beside the common fields. -/
structure Cfg where
  offset : Bool
  prio : Bool
  avgMax : Bool
  issue : Bool
deriving DecidableEq, Repr

/-- A sample as it was logged. -/
structure Smp where
  time : Nat
  val0 : Nat
  val1 : Nat
  dir : Nat
  prio : Nat
  bs : Nat
  off : Nat
  iss : Nat
deriving DecidableEq, Repr

/-- The values fit the types of the struct; a direction is a small number. -/
def Smp.Ok (s : Smp) : Prop :=
  s.time < 2 ^ 64 ∧ s.val0 < 2 ^ 64 ∧ s.val1 < 2 ^ 64 ∧ s.dir < 2 ^ 28 ∧ s.prio < 2 ^ 16 ∧ s.bs < 2 ^ 64 ∧ s.off < 2 ^ 64 ∧ s.iss < 2 ^ 64

/-- A number in decimal. -/
def num (n : Nat) : List Char := Nat.toDigits 10 n

/-- A signed number of 64 bits in decimal. -/
def sgn (n : Nat) : List Char := if n < 2 ^ 63 then num n else '-' :: num (2 ^ 64 - n)

/-- A number of 16 bits in four hex digits. -/
def hex4 (n : Nat) : List Char :=
  ['0', 'x', Nat.digitChar (n / 4096), Nat.digitChar (n / 256 % 16), Nat.digitChar (n / 16 % 16), Nat.digitChar (n % 16)]

/-- The line of a sample. -/
def text (c : Cfg) (s : Smp) : List Char :=
  [',', ' '].intercalate
    ([num s.time, sgn s.val0] ++ (if c.avgMax then [sgn s.val1] else []) ++ [num s.dir, num s.bs]
      ++ (if c.offset then [num s.off] else []) ++ [if c.prio then hex4 s.prio else num (if s.prio / 8192 = 1 then 1 else 0)]
      ++ (if c.issue then [num s.iss] else [])) ++ ['\n']

/-- The log file. -/
def texts (c : Cfg) (ss : List Smp) : List Char := (ss.map (text c)).flatten

/-- A sample whose priority has its two bytes exchanged if the host that logged it is big endian. -/
def prioX (be : Bool) (s : Smp) : Smp := if be then { s with prio := s.prio % 256 * 256 + s.prio / 256 } else s

end Fio.NetLog
