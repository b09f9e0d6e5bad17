import Verif.Zbd.Model
/-
Model of zbd_adjust_block, zbd_find_zone, zbd_offset_to_zone_idx and is_valid_offset, /repo/zbd.c.

The zone that zbd_convert_to_write_zone returns is a parameter, one per round of the `retry` loop;
the state of the device is the one after it returned.  Locks are not modelled: the job holds the lock
of the zone whose fields it reads here.  A failing assertion is `none`.
-/
namespace Fio.Zbd

inductive Ddir where
  | read | write | trim | sync
  deriving DecidableEq

/-- The options and the file of a job, as used by zbd_adjust_block. -/
structure Cfg where
  /-- `zbd_info->zone_size` -/
  zoneSize : Nat
  /-- `zbd_info->zone_size_log2`, 0 if the zone size is not a power of 2 -/
  log2 : Nat
  /-- `zbd_info->nr_zones` -/
  nrZones : Nat
  /-- `f->file_offset` -/
  fileOff : Nat
  /-- `f->io_size` -/
  ioSize : Nat
  /-- `f->min_zone` -/
  minZone : Nat
  /-- `f->max_zone` -/
  maxZone : Nat
  /-- td_random -/
  random : Bool
  /-- `o.min_bs[io_u->ddir]` -/
  minBs : Nat
  /-- `o.read_beyond_wp` -/
  readBeyondWp : Bool
  /-- `td->runstate == TD_VERIFYING && td_write(td)` -/
  verifying : Bool
  deriving DecidableEq

/-- is_valid_offset, zbd.c:26-29; the subtraction is modulo 2^64. -/
def validOff (c : Cfg) (off : Nat) : Bool := decide ((2 ^ 64 + off - c.fileOff) % 2 ^ 64 < c.ioSize)

/-- zbd_offset_to_zone_idx, zbd.c:43-54; the quotient is cut to 32 bits. -/
def zoneIdx (c : Cfg) (off : Nat) : Nat :=
  Nat.min ((if c.log2 > 0 then off >>> c.log2 else off / c.zoneSize) % 2 ^ 32) c.nrZones

/-- zbd_find_zone, zbd.c:1790-1830: `k` rounds have been made, `z1 = zb + 1 + k`, `z2 = zb - 1 - k`.
`none` is a zone outside of zone_info[]; `some none` is NULL. -/
def findZoneFrom (c : Cfg) (d : Dev) (zb zl minBytes : Nat) : (fuel k : Nat) → Option (Option Nat)
  | 0, _ => some none
  | fuel + 1, k =>
    let z1 := zb + 1 + k
    let ok2 := decide (c.minZone + 1 + k ≤ zb)
    let z2 := zb - 1 - k
    if ¬(z1 < zl ∨ ok2) then some none
    else
      let second : Option (Option Nat) :=
        if c.random ∧ ok2 then
          match d.zones[z2]? with
          | none => none
          | some z =>
            if !z.offline ∧ z.start + minBytes ≤ z.wp then some (some z2)
            else findZoneFrom c d zb zl minBytes fuel (k + 1)
        else findZoneFrom c d zb zl minBytes fuel (k + 1)
      if z1 < zl then
        match d.zones[z1]? with
        | none => none
        | some z =>
          if !z.offline then
            if z.start + minBytes ≤ z.wp then some (some z1) else second
          else if !c.random then some none
          else second
      else if !c.random then some none
      else second

/-- zbd_find_zone; each round uses up a zone above or below `zb`. -/
def findZone (c : Cfg) (d : Dev) (zb zl minBytes : Nat) : Option (Option Nat) :=
  findZoneFrom c d zb zl minBytes (zb + zl) 0

/-- What zbd_adjust_block returns, with the I/O and the device it leaves. -/
inductive Act where
  /-- io_u_accept; `z` is the zone whose lock is kept -/
  | accept (off len : Nat) (z : Option Nat) (d : Dev)
  /-- io_u_accept with the I/O replaced by get_next_verify -/
  | verify
  /-- io_u_eof -/
  | eof
  deriving DecidableEq

/-- The label `accept`, zbd.c:2362-2380 with its assertions. -/
def accept (off len zi : Nat) (d : Dev) : Option Act :=
  match d.zones[zi]? with
  | none => none
  | some z => if z.hasWp ∧ !z.offline then some (.accept off len (some zi) d) else none

/-- Conventional zones, zbd.c:2111-2139. -/
def adjustConv (c : Cfg) (d : Dev) (dir : Ddir) (off len zi : Nat) (zb : Zone) : Option Act :=
  if dir ≠ .write then some (.accept off len none d)
  else
    match d.zones[zi + 1]? with
    | none => none
    | some zn =>
      if !zn.hasWp ∨ off + len ≤ zn.start then some (.accept off len none d)
      else if off + c.minBs > zn.start then
        let off' := zb.start + zn.start - off
        let newLen := Nat.min len (zn.start - off')
        some (.accept off' (newLen / c.minBs * c.minBs) none d)
      else
        let newLen := zn.start - off
        some (.accept off (newLen / c.minBs * c.minBs) none d)

/-- Reads, the part behind the choice of the zone, zbd.c:2198-2227. `range` is `zb->wp - zb->start`
(no zone has its write pointer before its start),
`orig` is `orig_zb->start`. -/
def adjustReadIn (c : Cfg) (d : Dev) (off len zi range orig : Nat) (zb : Zone) : Option Act :=
  let off := if range ≤ len then zb.start
    else if c.random then zb.start + ((off - orig) % (range - len)) / c.minBs * c.minBs
    else off
  if !zb.hasWp then some (.accept off len none d)
  else
    let newLen := Nat.min len (zb.wp - off)
    let newLen := newLen / c.minBs * c.minBs
    let len := if newLen < len then newLen else len
    if zb.start ≤ off ∧ off + len ≤ zb.wp then accept off len zi d else none

/-- Reads from sequential zones, zbd.c:2160-2227. -/
def adjustRead (c : Cfg) (d : Dev) (off len zi : Nat) (zb : Zone) : Option Act :=
  if c.verifying then accept off len zi d
  else
    let range := if !zb.offline then zb.wp - zb.start else 0
    if range < c.minBs ∨ (!c.random ∧ off + c.minBs > zb.wp) then
      match findZone c d zi c.maxZone c.minBs with
      | none => none
      | some none => some .eof
      | some (some zi') =>
        match d.zones[zi']? with
        | none => none
        | some z =>
          let range := z.wp - z.start
          if range < c.minBs then none
          else adjustReadIn c d (if !c.random then z.start else off) len zi' range zb.start z
    else adjustReadIn c d off len zi range zb.start zb

/-- What the environment contributes to a write. -/
structure WEnv where
  /-- the result of zbd_convert_to_write_zone, for each round of the retry loop -/
  conv : List (Option Nat)
  /-- `zb->reset_zone` before or after zbd.c:2251-2257 -/
  resetZone : Bool
  /-- get_next_verify found an I/O to verify -/
  gotVerify : Bool
  /-- the device resets the zone -/
  resetOk : Bool

/-- The label `retry`, zbd.c:2238-2249: the zone to write to.  `none`: the environment gave no more
choices. -/
def writeZone (c : Cfg) (j : Job) (d : Dev) : List (Option Nat) → Option (Option Nat)
  | [] => none
  | none :: _ => some none
  | some zi :: rest =>
    match d.zones[zi]? with
    | none => none
    | some z =>
      if !j.wzr ∧ z.remainder > 0 ∧ z.remainder < c.minBs then writeZone c j d rest
      else some (some zi)

/-- Writes, from zbd.c:2295 on: the zone is not full. -/
def adjustWriteIn (c : Cfg) (j : Job) (d : Dev) (len zi : Nat) : Option Act :=
  match d.zones[zi]? with
  | none => none
  | some z =>
    match z.full j c.minBs with
    | none => none
    | some true => none
    | some false =>
      let off := z.wp
      if !validOff c off then some .eof
      else
        let newLen := Nat.min len (z.capEnd - off)
        let newLen := if (j.wzr ∧ newLen > c.minBs) ∨ !j.wzr then newLen / c.minBs * c.minBs
          else newLen
        if newLen = len then accept off len zi d
        else if j.wzr ∨ newLen ≥ c.minBs then accept off newLen zi d
        else some .eof

/-- Writes to sequential zones, zbd.c:2229-2328. -/
def adjustWrite (c : Cfg) (j : Job) (d : Dev) (e : WEnv) (len : Nat) : Option Act :=
  if len > c.zoneSize then some .eof
  else
    match writeZone c j d e.conv with
    | none => none
    | some none => some .eof
    | some (some zi) =>
      match d.zones[zi]? with
      | none => none
      | some z =>
        match if e.resetZone then some true else z.full j c.minBs with
        | none => none
        | some reset =>
          if reset then
            if j.verify && e.gotVerify then some .verify
            else if !e.resetOk ∧ z.wp ≠ z.start then some .eof
            else
              match resetWp j d zi with
              | none => none
              | some d' => if z.cap < c.minBs then some .eof else adjustWriteIn c j d' len zi
          else adjustWriteIn c j d len zi

/-- Trims, zbd.c:2330-2346. -/
def adjustTrim (c : Cfg) (d : Dev) (off len zi : Nat) (zb : Zone) : Option Act :=
  if !c.random ∨ zb.wp > zb.start then accept off len zi d
  else
    match findZone c d zi c.maxZone 1 with
    | none => none
    | some none => some .eof
    | some (some zi') =>
      match d.zones[zi']? with
      | none => none
      | some z => accept z.start len zi' d

/-- zbd_adjust_block, zbd.c:2093-2387. -/
def adjust (c : Cfg) (j : Job) (d : Dev) (e : WEnv) (dir : Ddir) (off len : Nat) : Option Act :=
  if c.minBs = 0 ∨ !validOff c off ∨ len = 0 then none
  else
    let zi := zoneIdx c off
    match d.zones[zi]? with
    | none => none
    | some zb =>
      if !zb.hasWp then adjustConv c d dir off len zi zb
      else if !zb.offline ∧ dir = .read ∧ c.readBeyondWp then some (.accept off len none d)
      else
        match dir with
        | .read => adjustRead c d off len zi zb
        | .write => adjustWrite c j d e len
        | .trim => adjustTrim c d off len zi zb
        | .sync => accept off len zi d

end Fio.Zbd
