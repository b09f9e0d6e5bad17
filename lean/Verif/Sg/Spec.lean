import Verif.Sg.Model
/-!
# What SCSI commands mean (SBC) and what completions are
-/

namespace Fio.Sg.Spec

/-- A number, most significant byte first. -/
def val : List Nat → Nat
  | [] => 0
  | b :: l => b * 256 ^ l.length + val l

/-- `n` bytes from place `i`. -/
def slice (m : List Nat) (i n : Nat) : List Nat := (m.drop i).take n

/-- What a device is asked for. -/
inductive Req
  | read (lba n : Nat) (fua : Bool)
  | write (lba n : Nat) (fua : Bool)
  | writeVerify (lba n bytchk : Nat)
  /-- `n = 0`: to the end of the medium -/
  | writeSame (lba n : Nat) (ndob : Bool)
  | writeStream (lba n id : Nat) (fua : Bool)
  | verify (lba n bytchk : Nat)
  /-- `n = 0`: to the end of the medium -/
  | syncCache (lba n : Nat)
  | unmap (len : Nat)
deriving DecidableEq, Repr

/-- The meaning of a command block: ten byte commands have four bytes of address at 2 and two of length at 7, those of sixteen eight at 2 and
four at 10. -/
def decode (c : List Nat) : Option Req :=
  let l4 := val (slice c 2 4)
  let n2 := val (slice c 7 2)
  let l8 := val (slice c 2 8)
  let n4 := val (slice c 10 4)
  let b1 := val (slice c 1 1)
  let fua := decide (b1 / 8 % 2 = 1)
  let chk := b1 / 2 % 4
  match val (slice c 0 1) with
  | 0x28 => some (.read l4 n2 fua)
  | 0x88 => some (.read l8 n4 fua)
  | 0x2a => some (.write l4 n2 fua)
  | 0x8a => some (.write l8 n4 fua)
  | 0x2e => some (.writeVerify l4 n2 chk)
  | 0x8e => some (.writeVerify l8 n4 chk)
  | 0x41 => some (.writeSame l4 n2 false)
  | 0x93 => some (.writeSame l8 n4 (decide (b1 % 2 = 1)))
  | 0x9a => some (.writeStream l8 (val (slice c 12 2)) (val (slice c 10 2)) fua)
  | 0x2f => some (.verify l4 n2 chk)
  | 0x8f => some (.verify l8 n4 chk)
  | 0x35 => some (.syncCache l4 n2)
  | 0x91 => some (.syncCache l8 n4)
  | 0x42 => some (.unmap n2)
  | _ => none

/-- The data that goes with it: the direction and the number of bytes. -/
def Req.data (bs : Nat) : Req → Dir × Nat
  | .read _ n _ => (.fromDev, n * bs)
  | .write _ n _ => (.toDev, n * bs)
  | .writeVerify _ n _ => (.toDev, n * bs)
  | .writeSame _ _ ndob => (.toDev, if ndob then 0 else bs)
  | .writeStream _ n _ _ => (.toDev, n * bs)
  | .verify _ n chk => (.toDev, if chk = 0 then 0 else if chk = 3 then bs else n * bs)
  | .syncCache _ _ => (.none, 0)
  | .unmap len => (.toDev, len)

/-- What is asked for: by the kind of the unit and the mode of writing. -/
def want (o : Opts) (dd : Ddir) (lba n : Nat) : Req :=
  match dd with
  | .read => .read lba n o.readfua
  | .sync => .syncCache 0 0
  | .write =>
    match o.mode with
    | .write => .write lba n o.writefua
    | .writeVerify => .writeVerify lba n 0
    | .writeSame => .writeSame lba n false
    | .writeSameNdob => .writeSame lba n true
    | .writeStream => .writeStream lba n o.stream o.writefua
    | .verify00 => .verify lba n 0
    | .verify01 => .verify lba n 1
    | .verify11 => .verify lba n 3

/-- The number of blocks fits: sixteen bits in the short commands and in WRITE STREAM, else thirty-two. -/
def Fits (o : Opts) (dd : Ddir) (lba n : Nat) : Prop :=
  n < 65536 ∨ (n < 2 ^ 32 ∧ ((2 ^ 32 - 1 ≤ lba ∧ ¬ (dd = .write ∧ o.mode = .writeStream)) ∨ (dd = .write ∧ o.mode = .writeSameNdob)))

/-- The parameters of UNMAP: the length of what follows, the length of the ranges, and from byte 8 ranges of sixteen bytes, with eight bytes of
address and four of length. -/
def ranges (d : List Nat) : Option (List (Nat × Nat)) :=
  if val (slice d 0 2) + 2 = d.length ∧ val (slice d 2 2) + 8 = d.length then
    some ((List.range (val (slice d 2 2) / 16)).map fun i => (val (slice d (8 + 16 * i) 8), val (slice d (16 + 16 * i) 4)))
  else none

/-- The units a command stands for. -/
def unitsOf (trim : Nat → Bool) (qs : Nat → Queue) (u : Nat) : List Nat := if trim u then ((qs u).us.take (qs u).cnt).map (·.idx) else [u]

/-- The headers up to the one with which there are `max` units, not more. -/
def Enough (w : Nat → Nat) (max : Nat) (hs : List (Nat × Bool)) : Prop :=
  max ≤ (hs.map fun h => w h.1).sum ∧ ∀ a h b, hs = a ++ h :: b → (a.map fun h => w h.1).sum < max

end Fio.Sg.Spec
