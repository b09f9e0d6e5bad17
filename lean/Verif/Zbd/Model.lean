/-
Model of the zone bookkeeping of zonemode=zbd: /repo/zbd.c and /repo/zbd.h.

One device shared by any number of jobs.  What is protected by `zbd_info->mutex` or by a zone's
mutex is one step.  A reset of a zone together with its release (zbd_reset_zone) is two steps, since
other jobs may take `zbd_info->mutex` in between.  Byte offsets are natural numbers (device offsets
are far below 2^64); the two kinds of counters that can wrap, `td->num_write_zones` and
`wp_valid_data_bytes`, are bit vectors.
Not modelled: the commands sent to the device (they are taken to succeed or to leave the state
alone), which zone zbd_convert_to_write_zone picks, zone locks as such.
-/
namespace Fio.Zbd

/-- zbd_types.h:11 -/
def maxWriteZones : Nat := 4096

/-- struct fio_zone_info, zbd.h:40-53. -/
structure Zone where
  start : Nat
  wp : Nat
  /-- `capacity` -/
  cap : Nat
  hasWp : Bool
  /-- `cond == ZBD_ZONE_COND_OFFLINE` -/
  offline : Bool
  write : Bool
  deriving DecidableEq, Inhabited

/-- The fields of struct thread_data and its options used here. -/
structure Job where
  /-- `num_write_zones`, fio.h:295 -/
  num : BitVec 32
  /-- `o.job_max_open_zones`, 0 for no limit -/
  jobMax : BitVec 32
  /-- `o.verify != VERIFY_NONE` -/
  verify : Bool
  /-- `o.write_zone_remainder` -/
  wzr : Bool
  /-- `o.min_bs[DDIR_WRITE]` -/
  minBs : Nat
  /-- `accounting_vdb`, zbd.c:151-154: the job writes and sets zone_reset_threshold -/
  acct : Bool
  deriving DecidableEq, Inhabited

/-- struct zoned_block_device_info, zbd.h:86-101, as far as it changes during a run.  `zones` ends
with the sentinel that only has a `start` (zbd.c:1000 and zbd_offset_to_zone_idx). -/
structure Dev where
  /-- `max_write_zones` -/
  max : Nat
  /-- `num_write_zones` -/
  num : Nat
  /-- `write_zones`, ZBD_MAX_WRITE_ZONES entries -/
  arr : List Nat
  /-- `wp_valid_data_bytes` -/
  vdb : BitVec 64
  zones : List Zone
  deriving DecidableEq

/-- zbd_zone_capacity_end, zbd.c:69-72. -/
def Zone.capEnd (z : Zone) : Nat := z.start + z.cap

/-- zbd_zone_remainder, zbd.c:79-85. -/
def Zone.remainder (z : Zone) : Nat :=
  if z.wp ≥ z.capEnd then 0 else z.capEnd - z.wp

/-- zbd_zone_full, zbd.c:95-104; `none` is the failing assertion at zbd.c:102. -/
def Zone.full (j : Job) (z : Zone) (required : Nat) : Option Bool :=
  if !z.hasWp then some false
  else if j.wzr then some (z.remainder == 0)
  else if required % 512 = 0 then some (decide (required > z.remainder))
  else none

/-- zbd_zone_end, zbd.c:60-63: the start of the following entry of zone_info[]. -/
def Dev.zoneEnd (d : Dev) (i : Nat) : Option Nat := (d.zones[i + 1]?).map Zone.start

/-- `zbdi->write_zones[zbdi->num_write_zones++] = zone_idx; td->num_write_zones++; z->write = 1;`
zbd.c:604-606.  `none` is a store behind the array. -/
def add (j : Job) (d : Dev) (i : Nat) (z : Zone) : Option (Job × Dev) :=
  if d.num < d.arr.length then
    some ({ j with num := j.num + 1 },
          { d with arr := d.arr.set d.num i, num := d.num + 1,
                   zones := d.zones.set i { z with write := true } })
  else none

/-- __zbd_write_zone_get, zbd.c:554-612. -/
def getIn (j : Job) (d : Dev) (i : Nat) : Option (Bool × Job × Dev) :=
  match d.zones[i]? with
  | none => none
  | some z =>
    if z.offline then some (false, j, d)
    else if j.verify && z.remainder == 0 then some (false, j, d)
    else if d.max = 0 then some (true, j, d)
    else if z.write then some (z.remainder != 0, j, d)
    else if j.jobMax > 0 ∧ j.num ≥ j.jobMax then some (false, j, d)
    else if d.num ≥ d.max then some (false, j, d)
    else (add j d i z).map fun p => (true, p.1, p.2)

/-- zbd_write_zone_get, zbd.c:626-639. -/
def get (j : Job) (d : Dev) (i : Nat) : Option (Bool × Job × Dev) :=
  match d.zones[i]? with
  | none => none
  | some z =>
    if j.verify then
      match z.full j j.minBs with
      | none => none
      | some true => some (false, j, d)
      | some false => getIn j d i
    else getIn j d i

/-- The search of zbd_write_zone_put, zbd.c:322-325: the first index in `zi .. zi + left` that holds
the zone, or `zi + left`. -/
def findZi (arr : List Nat) (i : Nat) : (left zi : Nat) → Nat
  | 0, zi => zi
  | left + 1, zi => if arr[zi]? = some i then zi else findZi arr i left (zi + 1)

/-- The memmove of zbd_write_zone_put, zbd.c:332-335: the entries behind `zi` move down by one, the
last entry stays. -/
def memmoveDown (arr : List Nat) (zi : Nat) : List Nat :=
  arr.take zi ++ arr.drop (zi + 1) ++ arr.drop (arr.length - 1)

/-- zbd_write_zone_put, zbd.c:314-340. -/
def put (j : Job) (d : Dev) (i : Nat) : Option (Job × Dev) :=
  match d.zones[i]? with
  | none => none
  | some z =>
    if !z.write then some (j, d)
    else
      let zi := findZi d.arr i d.num 0
      if zi = d.num then some (j, d)
      else some ({ j with num := j.num - 1 },
          { d with arr := memmoveDown d.arr zi, num := d.num - 1,
                   zones := d.zones.set i { z with write := false } })

/-- __zbd_reset_zone with a device that obeys, zbd.c:266-303. -/
def resetWp (j : Job) (d : Dev) (i : Nat) : Option Dev :=
  match d.zones[i]? with
  | none => none
  | some z =>
    if z.wp - z.start = 0 then some d
    else some { d with vdb := if j.acct then d.vdb - BitVec.ofNat 64 (z.wp - z.start) else d.vdb,
                       zones := d.zones.set i { z with wp := z.start } }

/-- zbd_finish_zone with a device that obeys, zbd.c:376-403. -/
def finish (d : Dev) (i : Nat) : Option Dev :=
  match d.zones[i]?, d.zoneEnd i with
  | some z, some e => some { d with zones := d.zones.set i { z with wp := e } }
  | _, _ => none

/-- The write pointer update of zbd_queue_io for a write, zbd.c:1893-1906. -/
def queued (j : Job) (d : Dev) (i off len : Nat) : Option Dev :=
  match d.zones[i]? with
  | none => none
  | some z =>
    let e := Nat.min (off + len) z.capEnd
    some { d with vdb := if j.acct ∧ z.wp ≤ e then d.vdb + BitVec.ofNat 64 (e - z.wp) else d.vdb,
                  zones := d.zones.set i { z with wp := e } }

/-- zbd_end_zone_io for a write, zbd.c:1842-1854. -/
def endIo (j : Job) (d : Dev) (i off len : Nat) : Option (Job × Dev) :=
  match d.zones[i]? with
  | none => none
  | some z => if off + len ≥ z.capEnd then put j d i else some (j, d)

/-- The end of zbd_recover_write_error, zbd.c:2506: the write pointer becomes what the device
reports. -/
def recover (d : Dev) (i wp : Nat) : Option Dev :=
  match d.zones[i]? with
  | none => none
  | some z => some { d with zones := d.zones.set i { z with wp := wp } }

structure St where
  dev : Dev
  jobs : List Job
  deriving DecidableEq

/-- The steps of job `j` on zone `z`. -/
inductive Op where
  /-- __zbd_write_zone_get, from zbd_setup_files -/
  | getIn (j z : Nat)
  /-- zbd_write_zone_get -/
  | get (j z : Nat)
  /-- zbd_write_zone_put under the mutex (second half of zbd_reset_zone, zbd.c:362-364, and
  zbd_convert_to_write_zone) -/
  | put (j z : Nat)
  /-- __zbd_reset_zone (also first half of zbd_reset_zone) -/
  | resetWp (j z : Nat)
  | finish (j z : Nat)
  | queued (j z off len : Nat)
  | endIo (j z off len : Nat)
  | recover (j z wp : Nat)
  deriving DecidableEq

def Op.job : Op → Nat
  | .getIn j _ | .get j _ | .put j _ | .resetWp j _ | .finish j _ | .queued j .. | .endIo j ..
  | .recover j .. => j

def Op.zone : Op → Nat
  | .getIn _ z | .get _ z | .put _ z | .resetWp _ z | .finish _ z | .queued _ z .. | .endIo _ z ..
  | .recover _ z _ => z

/-- The effect of a step on the device and on the job that takes it. -/
def act (j : Job) (d : Dev) : Op → Option (Job × Dev)
  | .getIn _ z => (getIn j d z).map fun r => (r.2.1, r.2.2)
  | .get _ z => (get j d z).map fun r => (r.2.1, r.2.2)
  | .put _ z => put j d z
  | .resetWp _ z => (resetWp j d z).map fun d => (j, d)
  | .finish _ z => (finish d z).map fun d => (j, d)
  | .queued _ z off len => (queued j d z off len).map fun d => (j, d)
  | .endIo _ z off len => endIo j d z off len
  | .recover _ z wp => (recover d z wp).map fun d => (j, d)

def step (s : St) (o : Op) : Option St :=
  match s.jobs[o.job]? with
  | none => none
  | some j => (act j s.dev o).map fun p => { dev := p.2, jobs := s.jobs.set o.job p.1 }

def run (s : St) : List Op → Option St
  | [] => some s
  | o :: os => (step s o).bind fun s => run s os

end Fio.Zbd
