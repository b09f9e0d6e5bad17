/-!
# Disk utilisation (diskutil.c, diskutil.h, stat.c)

Not modelled: finding the directory of a disk in sysfs, names, locks, the utilisation in percent (a double).  What the kernel prints and the
clock are given.
-/

namespace Fio.Du

/-- /repo/diskutil.h:25-33, with [0] for reads and [1] for writes; `msec` is apart. -/
inductive F
  | rios | rmerges | rsectors | rticks | wios | wmerges | wsectors | wticks | ioTicks | inQueue
deriving DecidableEq, Repr

/-- /repo/diskutil.c:67-79 `get_io_ticks`: the numbers of the line in sysfs, the ninth (I/Os in flight) is left out; `none`: not ten were read. -/
def parse : List Nat → Option (F → Nat)
  | a :: b :: c :: d :: e :: f :: g :: h :: _ :: i :: j :: _ => some fun
    | .rios => a | .rmerges => b | .rsectors => c | .rticks => d
    | .wios => e | .wmerges => f | .wsectors => g | .wticks => h
    | .ioTicks => i | .inQueue => j
  | _ => none

/-- /repo/diskutil.c:81-96 `safe_32bit_diff` -/
def diff32 (n o : Nat) : Nat :=
  if o ≤ n ∨ 2 ^ 32 ≤ o then (n + 2 ^ 64 - o) % 2 ^ 64 else 2 ^ 32 + n - o

/-- /repo/diskutil.c:111-121: what is added. -/
def delta (f : F) (n o : Nat) : Nat :=
  match f with
  | .rticks | .wticks | .ioTicks | .inQueue => diff32 n o
  | _ => (n + 2 ^ 64 - o) % 2 ^ 64

/-- `time` is in microseconds. -/
structure Disk where
  acc : F → Nat
  msec : Nat
  last : F → Nat
  time : Nat

/-- /repo/diskutil.c:349-350: a disk just added; an error of the first reading is not looked at. -/
def new (line : Option (List Nat)) (now : Nat) : Disk := ⟨fun _ => 0, 0, ((line.bind parse).getD fun _ => 0), now⟩

/-- /repo/diskutil.c:98-127 `update_io_tick_disk` with `users` users. -/
def poll (d : Disk) (users : Nat) (line : Option (List Nat)) (now : Nat) : Disk :=
  if users = 0 then d
  else
    match line.bind parse with
    | none => d
    | some v => ⟨fun f => (d.acc f + delta f (v f) (d.last f)) % 2 ^ 64, d.msec + (now - d.time) / 1000, v, now⟩

/-- One look at a disk: how many files are open, the line and the time. -/
structure Look where
  users : Nat
  line : Option (List Nat)
  now : Nat

def polls (d : Disk) (ls : List Look) : Disk := ls.foldl (fun d l => poll d l.users l.line l.now) d

/-! ## Users -/

/-- Disks by number: `known` is `disk_list`; `hook d = some m`: the `slavelist` of `d` is in the list `slaves` of `m`. -/
structure St where
  known : List Nat := []
  users : Nat → Int := fun _ => 0
  slaves : Nat → List Nat := fun _ => []
  hook : Nat → Option Nat := fun _ => none

/-- /repo/diskutil.c:254-275, 308-356 `disk_util_add` and `find_add_disk_slaves` of disk `d`; `sub` is what sysfs says, `n` bounds the depth. -/
def add (sub : Nat → List Nat) : Nat → St → Nat → St
  | 0, s, _ => s
  | n + 1, s, d =>
    if d ∈ s.known then s
    else
      (sub d).foldl (fun s e =>
        if e ∈ s.known then s
        else
          let s := add sub n s e
          { s with
            users := fun j => if j = e then s.users e + 1 else s.users j
            slaves := fun j => if j = d then s.slaves d ++ [e] else s.slaves j
            hook := fun j => if j = e then some d else s.hook j }) { s with known := s.known ++ [d] }

/-- /repo/diskutil.h:83-99 `disk_util_mod`: the list gone through begins at the `slavelist` of `d` itself; if that is in the list of a master, the
head of that list is taken for the `slavelist` of a disk and memory that is no disk is changed: `none`. -/
def mod (s : St) (d : Nat) (v : Int) : Option St :=
  match s.hook d with
  | none => some { s with users := fun j => if j = d then s.users d + v else s.users j }
  | some _ => none

/-- Files opened (`true`) and closed. -/
def mods (s : St) : List (Nat × Bool) → Option St
  | [] => some s
  | (d, o) :: es => (mod s d (if o then 1 else -1)).bind fun s => mods s es

/-! ## Software RAID -/

/-- /repo/stat.c:1019-1040 `aggregate_slaves_stats`: the sums, and the number of slaves.  `ioTicks` is not among them. -/
def aggregate (disks : Nat → Disk) (agg : F → Nat) (count : Nat) (slaves : List Nat) : (F → Nat) × Nat :=
  slaves.foldl (fun a e => (fun f => if f = .ioTicks then a.1 f else (a.1 f + (disks e).acc f) % 2 ^ 64, a.2 + 1)) (agg, count)

/-- /repo/stat.c:1163-1206: each time the statistics are printed, in each format, the sums are made again. -/
def prints (disks : Nat → Disk) (slaves : List Nat) : Nat → (F → Nat) × Nat
  | 0 => (fun _ => 0, 0)
  | n + 1 => let r := prints disks slaves n; aggregate disks r.1 r.2 slaves

end Fio.Du
