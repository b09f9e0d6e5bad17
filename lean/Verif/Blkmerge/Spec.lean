import Verif.Blkmerge.Model
/-
What merging traces has to do.
-/
namespace Fio.Blkmerge

/-- A number in a file, in one or the other byte order. -/
def num (big : Bool) (n v : Nat) : List Byte := if big then (le n v).reverse else le n v

/-- A record of a blktrace file: the trace and the data behind it. -/
structure Rec where
  t : Trace
  pdu : List Byte
  ok : t.pduLen.toNat = pdu.length

/-- A record in a file written by a machine of one or the other byte order. -/
def recBytes (big : Bool) (t : Trace) : List Byte :=
  num big 4 t.magic.toNat ++ num big 4 t.sequence.toNat ++ num big 8 t.time.toNat ++
  num big 8 t.sector.toNat ++ num big 4 t.bytes.toNat ++ num big 4 t.action.toNat ++
  num big 4 t.pid.toNat ++ num big 4 t.device.toNat ++ num big 4 t.cpu.toNat ++
  num big 2 t.error.toNat ++ num big 2 t.pduLen.toNat

/-- A file of records. -/
def fileBytes (big : Bool) : List Rec → List Byte
  | [] => []
  | r :: l => recBytes big r.t ++ r.pdu ++ fileBytes big l

/-- The records to replay: the queueing of a read, a write or a discard. -/
def Wanted (t : Trace) : Prop :=
  t.action.toNat % 65536 = 1 ∧
  (t.action.toNat.testBit 16 = true ∨ t.action.toNat.testBit 17 = true ∨
   t.action.toNat.testBit 29 = true)

instance (t : Trace) : Decidable (Wanted t) := by unfold Wanted; infer_instance

/-- What becomes of a record: its time scaled, nothing behind it. -/
def scaled (pct : Nat) (t : Trace) : Trace :=
  { t with time := BitVec.ofNat 64 (t.time.toNat * pct / 100), pduLen := 0#16 }

/-- What a file has to contribute. -/
def share (pct : Nat) (l : List Rec) : List Trace :=
  ((l.map (·.t)).filter (fun t => decide (Wanted t))).map (scaled pct)

/-- `out` has the elements of all lists, those of each list in their order. -/
inductive Shuffle {α : Type} : List (List α) → List α → Prop
  | done {ls : List (List α)} : (∀ l ∈ ls, l = []) → Shuffle ls []
  | step {ls r : List (List α)} {x : α} {l out : List α} :
      ls.Perm ((x :: l) :: r) → Shuffle (l :: r) out → Shuffle ls (x :: out)

/-- In the order of time. -/
def Sorted (l : List Trace) : Prop := l.Pairwise fun a b => a.time.toNat ≤ b.time.toNat

/-- A file to merge: byte order, scale and records. -/
structure Input where
  big : Bool
  pct : Nat
  recs : List Rec

/-- Files that can be merged: a blktrace file with a record to replay, and times that do not overflow
when scaled. -/
structure Input.Good (i : Input) : Prop where
  magic : ∀ r l, i.recs = r :: l → r.t.magic.toNat / 256 = 0x656174
  some : ∃ r ∈ i.recs, Wanted r.t
  time : ∀ r ∈ i.recs, r.t.time.toNat * i.pct < 2 ^ 64
  pct : 0 < i.pct ∧ i.pct < 2 ^ 31

/-- An option that is a list: 20 places, the unused ones 0. -/
def optArray (l : List Int) : List Int := l ++ List.replicate (20 - l.length) 0

end Fio.Blkmerge
