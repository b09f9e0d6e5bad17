import Verif.Blkreplay.Model
import Verif.Blkmerge.Spec
/-
What the replay of a block trace has to be.
-/
namespace Fio.Blkreplay
open Fio.Blkmerge (Trace Rec fileBytes)

/-- An I/O to do: direction, offset, length, time to wait before it in microseconds, device. -/
structure Io where
  dd : Ddir
  offset : Nat
  len : Nat
  delay : Nat
  name : Nat
deriving DecidableEq, Repr

/-- A bit of the category. -/
def has (t : Trace) (b : Nat) : Bool := t.action.toNat.testBit (16 + b)

/-- A record of an I/O being queued, and no message. -/
def Queued (t : Trace) : Prop := t.action.toNat % 65536 = 1 ∧ has t 10 = false

instance (t : Trace) : Decidable (Queued t) := by unfold Queued; infer_instance

/-- What kind of I/O. -/
def kind (t : Trace) : Ddir :=
  if has t 13 then .trim else if has t 2 then .sync else if has t 1 then .write else .read

/-- With `--readonly` nothing that changes a device is replayed. -/
def Forbidden (o : Opts) (t : Trace) : Prop := o.readOnly = true ∧ (has t 1 = true ∨ has t 13 = true)

instance (o : Opts) (t : Trace) : Decidable (Forbidden o t) := by unfold Forbidden; infer_instance

/-- Rounded down and up. -/
def down (a x : Nat) : Nat := if a = 0 then x else x / a * a
/-- Rounded up. -/
def up (a x : Nat) : Nat := if a = 0 then x else (x + a - 1) / a * a

/-- The I/O of a record, `last` being the time of the queued record before. -/
def ioOf (o : Opts) (last : Nat) (name : Nat) (t : Trace) : Io where
  dd := kind t
  offset := if kind t = .sync then 0
    else down o.align (if o.scale = 0 then t.sector.toNat * 512 else t.sector.toNat * 512 / o.scale)
  len := if kind t = .sync then 0 else up o.align t.bytes.toNat
  delay := (if last = 0 ∨ o.noStall = true ∨ t.time.toNat < last then 0
    else if o.timeScale = 100 then t.time.toNat - last else o.stretch (t.time.toNat - last)) / 1000
  name := name

/-- The device of a record. -/
def deviceOf (o : Opts) (t : Trace) : Option Nat :=
  o.lookup (t.device.toNat / 2 ^ 20) (t.device.toNat % 2 ^ 20)

/-- Reads and writes of nothing are not replayed, nor what is to be skipped. -/
def Kept (o : Opts) (t : Trace) : Prop :=
  o.skip (kind t) = false ∧ (kind t = .sync ∨ kind t = .trim ∨ t.bytes.toNat ≠ 0)

instance (o : Opts) (t : Trace) : Decidable (Kept o t) := by unfold Kept; infer_instance

/-- The I/Os of the records. -/
def expected (o : Opts) : Nat → List Trace → List Io
  | _, [] => []
  | last, t :: l =>
    if Queued t ∧ ¬ Forbidden o t then
      (if Kept o t then [ioOf o last ((deviceOf o t).getD 0) t] else []) ++ expected o t.time.toNat l
    else expected o last l

/-- The I/Os in the list of a job. -/
def iosOf (files : List FileE) : List Ev → List Io
  | [] => []
  | .io dd off len delay no :: l =>
    ⟨dd, off, len, delay, (files[no]?.map (·.name)).getD 0⟩ :: iosOf files l
  | _ :: l => iosOf files l

/-- Traces and options that fit: alignment 0 or a power of 2, no overflow, devices that are found. -/
structure Fits (o : Opts) (l : List Rec) : Prop where
  align : o.align = 0 ∨ ∃ k, k < 32 ∧ o.align = 2 ^ k
  magic : ∀ r ∈ l, r.t.magic.toNat = 0x65617407
  sector : ∀ r ∈ l, r.t.sector.toNat * 512 < 2 ^ 64
  bytes : ∀ r ∈ l, r.t.bytes.toNat + o.align ≤ 2 ^ 32
  found : ∀ r ∈ l, deviceOf o r.t ≠ none

end Fio.Blkreplay
