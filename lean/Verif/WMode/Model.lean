/-!
# Several kinds of writes of the io_uring_cmd engine (engines/io_uring.c, `write_mode`)

Splitting the text at `:` and `/`, and `atoi`, are not modelled: an entry is its operation and its percentage, `none` if it is blank.
-/

namespace Fio.WMode

/-- The operations (/repo/engines/io_uring.c:241-254) -/
inductive Op
  | write | uncor | zeroes | verify | append
  deriving Repr, DecidableEq

/-- An entry of the option. -/
structure Entry where
  op : Op
  perc : Option Int
  deriving Repr, DecidableEq

/-- /repo/engines/io_uring.c:288-337: the loop over the entries, with the sum so far (32 bits); blank entries have the percentage `-1U` -/
def loop : List Entry → Nat → Nat → Option (List (Op × Nat) × Nat)
  | [], _, total => some ([], total)
  | e :: es, i, total =>
    if i ≥ 5 then none
    else match e.perc with
      | none => match loop es (i + 1) total with
        | some (l, t) => some ((e.op, 2 ^ 32 - 1) :: l, t)
        | none => none
      | some p =>
        if p < 0 then none
        else match loop es (i + 1) ((total + p.toNat) % 2 ^ 32) with
          | some (l, t) => some ((e.op, p.toNat) :: l, t)
          | none => none

/-- /repo/engines/io_uring.c:256-375 `str_write_mode_cb` with several entries; `none` is an error. `WMODE_SPLIT_MAX` is 5
(/repo/engines/io_uring.c:102-111). -/
def parse (es : List Entry) : Option (List (Op × Nat)) :=
  match loop es 0 0 with
  | none => none
  | some (l, total) =>
    if l.length < 2 then none
    else if total > 100 then none
    else
      let missing := l.countP fun e => e.2 == 2 ^ 32 - 1
      if missing ≠ 0 then some (l.map fun e => if e.2 = 2 ^ 32 - 1 then (e.1, (100 - total) / missing) else e)
      else if total ≠ 100 then none
      else some l

/-- /repo/engines/io_uring.c:827-846: the entry for a draw `rand` from 0 to 99; `none` is `-EINVAL` -/
def choose (rand : Nat) : List (Op × Nat) → Nat → Nat → Option Nat
  | [], _, _ => none
  | e :: es, i, perc => if rand < (perc + e.2) % 2 ^ 32 then some i else choose rand es (i + 1) ((perc + e.2) % 2 ^ 32)

/-- The flags of a unit that tell verification what a block holds. -/
structure Flags where
  trimmed : Bool
  zeroed : Bool
  errored : Bool
  deriving Repr, DecidableEq

/-- /repo/engines/io_uring.c:817-848 `fio_ioring_cmd_prep_write_split`: operation and flags of a write; `none` is `-EINVAL` -/
def prepWrite (deac : Bool) (split : List (Op × Nat)) (rand : Nat) (_f : Flags) : Option (Op × Flags) :=
  match choose rand split 0 0 with
  | none => none
  | some i => match split[i]? with
    | none => none
    | some e =>
      let f : Flags := ⟨false, false, false⟩
      let f := if e.1 = .zeroes then (if deac then { f with trimmed := true } else { f with zeroed := true })
        else if e.1 = .uncor then { f with errored := true } else f
      some (e.1, f)

end Fio.WMode
