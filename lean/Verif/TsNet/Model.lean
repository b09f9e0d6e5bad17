import Verif.Common.Le
/-!
# Statistics of a job sent from a server to the client (server.c, client.c)

Memory is bytes, both hosts may have either byte order.  The struct `cmd_ts_pdu` (packed, /repo/stat.h:166-309, /repo/stat.h:9-19,
/repo/server.h:121-124) is a map from fields and indices to the bytes of the element, as both sides have the same layout; what is behind it
in the message is memory with addresses from the start of the payload, `hs` is the size of the struct.  Doubles are their 64 bit patterns,
`pack754` and `unpack754` are given (C51).  Assignments to different fields that do not depend on each other are in tables in their order.
Not modelled: the printed debug messages, a failing `calloc`, the padding fields, how the command is cut and sent (C37).
-/

namespace Fio.TsNet

/-- Fields of /repo/iolog.h:14-21 `struct io_stat`. -/
inductive StF
  | max | min | samples | mean | dev
deriving DecidableEq, Repr

/-- The `io_stat`s of a job: /repo/stat.h:182-187. -/
inductive St
  | sync | clat | slat | lat | bw | iops
deriving DecidableEq, Repr

/-- The numbers of /repo/stat.h:166-309 `struct thread_stat` without pads, and (`g…`) of /repo/stat.h:9-19 `struct group_run_stats`. -/
inductive F
  | error | threadNumber | groupid | jobStart | pid | members | unified | disablePrio
  | st (s : St) (f : StF)
  | usr | sys | ctx | minf | majf | clatPct | latPct | slatPct | precision | pctList
  | map | submit | complete | latN | latU | latM | plat | syncPlat
  | total | short | drop | totalSubmit | totalComplete | ioBytes | runtime | totalRunTime
  | contOnError | firstError | totalErr | nrBlock | block | kbBase | unitBase | zoneResets | countZone
  | latDepth | latTarget | latPercentile | latWindow | sigFigs | ssDur | ssState | ssHead
  | ssLimit | ssSlope | ssDev | ssCrit | ioprio | ssIopsOff | ssBwOff | ssLatOff | prioOff | nrPrio
  | hit | miss
  | gMaxRun | gMinRun | gMaxBw | gMinBw | gBytes | gAgg | gKb | gUnit | gSig | gGroup | gUnified
deriving DecidableEq, Repr

/-- Bytes of one element as declared in /repo/stat.h:9-19, 166-309 and /repo/iolog.h:14-21; of a `fio_fp64_t` the first eight. -/
def width : F → Nat
  | .error | .threadNumber | .groupid | .pid | .members | .unified | .disablePrio | .clatPct | .latPct | .slatPct | .firstError
  | .block | .kbBase | .unitBase | .latDepth | .sigFigs | .ssState | .ssHead | .ioprio | .nrPrio
  | .gKb | .gUnit | .gSig | .gGroup | .gUnified => 4
  | .contOnError | .countZone => 2
  | _ => 8

/-- Which of the fields are `fio_fp64_t`. -/
def isFp : F → Bool
  | .st _ .mean | .st _ .dev | .pctList | .latPercentile | .ssLimit | .ssSlope | .ssDev | .ssCrit => true
  | _ => false

/-- /repo/stat.h:35 `FIO_IO_U_PLAT_NR` -/
def plNr : Nat := 29 * 64

/-- Numbers of elements: /repo/stat.h:166-309 with 24-36, 126, 157 and /repo/io_ddir.h:17-18. -/
def cnt : F → Nat
  | .st .sync _ => 1
  | .st _ _ | .short | .drop | .ioBytes | .runtime | .prioOff | .nrPrio => 3
  | .pctList => 20
  | .map | .submit | .complete => 7
  | .latN | .latU => 10
  | .latM => 12
  | .plat => 3 * 3 * plNr
  | .syncPlat => plNr
  | .total => 4
  | .block => 8192
  | .gMaxRun | .gMinRun | .gMaxBw | .gMinBw | .gBytes | .gAgg => 3
  | _ => 1

/-! ## Byte order -/

/-- A number of `w` bytes in the memory of a host; `be`: the host is big endian. -/
def enc (be : Bool) (w v : Nat) : List Byte := if be then (le w v).reverse else le w v

/-- The number a host reads. -/
def dec (be : Bool) (bs : List Byte) : Nat := fromLe (if be then bs.reverse else bs)

/-- /repo/os/os.h:210-300: `cpu_to_leN` and `leN_to_cpu`, the same function on a host. -/
def swapLe (be : Bool) (w v : Nat) : Nat := if be then fromLe (le w v).reverse else v

/-- The conversions used: `cpu_to_leN` (N = 8w), or a double with `pack754` and `cpu_to_le64`. -/
inductive C
  | i (w : Nat)
  | fp
deriving DecidableEq, Repr

/-- `pack754` and `unpack754` of bit patterns of doubles, /repo/lib/ieee754.h:9-10. -/
structure Fp where
  pack : Nat → Nat
  unpack : Nat → Nat
  pack_lt : ∀ d, pack d < 256 ^ 8

/-- `dst = cpu_to_leN(v)` where `dst` has `d` bytes; or /repo/server.c:1687. -/
def put (fp : Fp) (be : Bool) (d : Nat) (c : C) (v : Nat) : List Byte :=
  enc be d (match c with
    | .i w => swapLe be w (v % 256 ^ w)
    | .fp => swapLe be 8 (fp.pack v))

/-- `x = leN_to_cpu(x)` where `x` has `d` bytes; or /repo/client.c:955. -/
def get (fp : Fp) (be : Bool) (d : Nat) (c : C) (bs : List Byte) : List Byte :=
  enc be d (match c with
    | .i w => swapLe be w (dec be bs % 256 ^ w)
    | .fp => fp.unpack (swapLe be 8 (dec be bs)))

/-! ## The struct -/

abbrev Head := F → Nat → List Byte

abbrev Tab := List (F × C × Nat)

/-- One line (in its loop over `n` elements) of `fio_server_send_ts`. -/
def send1 (fp : Fp) (be : Bool) (ts : Head) (p : Head) (t : F × C × Nat) : Head :=
  fun g i => if g = t.1 ∧ i < t.2.2 then put fp be (width g) t.2.1 (dec be (ts g i)) else p g i

/-- One line (in its loop over `n` elements) of `convert_ts`, in place. -/
def recv1 (fp : Fp) (be : Bool) (p : Head) (t : F × C × Nat) : Head :=
  fun g i => if g = t.1 ∧ i < t.2.2 then get fp be (width g) t.2.1 (p g i) else p g i

/-- /repo/server.c:1678-1689 `convert_io_stat` -/
def sendStat (s : St) (n : Nat) : Tab :=
  [(.st s .max, .i 8, n), (.st s .min, .i 8, n), (.st s .samples, .i 8, n), (.st s .mean, .fp, n), (.st s .dev, .fp, n)]

/-- /repo/client.c:946-957 `convert_io_stat` -/
def recvStat (s : St) (n : Nat) : Tab :=
  [(.st s .max, .i 8, n), (.st s .min, .i 8, n), (.st s .samples, .i 8, n), (.st s .mean, .fp, n), (.st s .dev, .fp, n)]

/-- /repo/server.c:1691-1709 `convert_gs` -/
def sendGs : Tab :=
  [(.gMaxRun, .i 8, 3), (.gMinRun, .i 8, 3), (.gMaxBw, .i 8, 3), (.gMinBw, .i 8, 3), (.gBytes, .i 8, 3), (.gAgg, .i 8, 3),
   (.gKb, .i 4, 1), (.gUnit, .i 4, 1), (.gGroup, .i 4, 1), (.gUnified, .i 4, 1), (.gSig, .i 4, 1)]

/-- /repo/client.c:1090-1108 `convert_gs` -/
def recvGs : Tab :=
  [(.gMaxRun, .i 8, 3), (.gMinRun, .i 8, 3), (.gMaxBw, .i 8, 3), (.gMinBw, .i 8, 3), (.gBytes, .i 8, 3), (.gAgg, .i 8, 3),
   (.gKb, .i 4, 1), (.gUnit, .i 4, 1), (.gSig, .i 4, 1), (.gGroup, .i 4, 1), (.gUnified, .i 4, 1)]

/-- /repo/server.c:1734-1838 `fio_server_send_ts` without `block_infos`. -/
def sendTab : Tab :=
  [(.error, .i 4, 1), (.threadNumber, .i 4, 1), (.groupid, .i 4, 1), (.jobStart, .i 8, 1), (.pid, .i 4, 1), (.members, .i 4, 1),
   (.unified, .i 4, 1), (.ioprio, .i 4, 1), (.disablePrio, .i 4, 1)] ++
  sendStat .clat 3 ++ sendStat .slat 3 ++ sendStat .lat 3 ++ sendStat .bw 3 ++ sendStat .iops 3 ++ sendStat .sync 1 ++
  [(.usr, .i 8, 1), (.sys, .i 8, 1), (.ctx, .i 8, 1), (.minf, .i 8, 1), (.majf, .i 8, 1), (.clatPct, .i 4, 1), (.latPct, .i 4, 1),
   (.slatPct, .i 4, 1), (.precision, .i 8, 1), (.pctList, .fp, 20), (.map, .i 8, 7), (.submit, .i 8, 7), (.complete, .i 8, 7),
   (.latN, .i 8, 10), (.latU, .i 8, 10), (.latM, .i 8, 12), (.plat, .i 8, 3 * 3 * plNr), (.syncPlat, .i 8, plNr), (.total, .i 8, 4),
   (.short, .i 8, 3), (.drop, .i 8, 3), (.totalSubmit, .i 8, 1), (.totalComplete, .i 8, 1), (.ioBytes, .i 8, 3), (.runtime, .i 8, 3),
   (.totalRunTime, .i 8, 1), (.contOnError, .i 2, 1), (.totalErr, .i 8, 1), (.firstError, .i 4, 1), (.kbBase, .i 4, 1),
   (.unitBase, .i 4, 1), (.zoneResets, .i 8, 1), (.countZone, .i 2, 1), (.latDepth, .i 4, 1), (.latTarget, .i 8, 1),
   (.latWindow, .i 8, 1), (.latPercentile, .fp, 1), (.sigFigs, .i 4, 1), (.nrBlock, .i 8, 1), (.ssDur, .i 8, 1), (.ssState, .i 4, 1),
   (.ssHead, .i 4, 1), (.ssLimit, .fp, 1), (.ssSlope, .fp, 1), (.ssDev, .fp, 1), (.ssCrit, .fp, 1), (.hit, .i 8, 1),
   (.miss, .i 8, 1)] ++ sendGs

/-- /repo/client.c:963-1088 `convert_ts` without `block_infos` and what is behind the struct; 1898. -/
def recvTab : Tab :=
  [(.error, .i 4, 1), (.threadNumber, .i 4, 1), (.groupid, .i 4, 1), (.jobStart, .i 8, 1), (.pid, .i 4, 1), (.members, .i 4, 1),
   (.unified, .i 4, 1), (.ioprio, .i 4, 1), (.disablePrio, .i 4, 1)] ++
  recvStat .clat 3 ++ recvStat .slat 3 ++ recvStat .lat 3 ++ recvStat .bw 3 ++ recvStat .iops 3 ++ recvStat .sync 1 ++
  [(.usr, .i 8, 1), (.sys, .i 8, 1), (.ctx, .i 8, 1), (.minf, .i 8, 1), (.majf, .i 8, 1), (.clatPct, .i 4, 1), (.latPct, .i 4, 1),
   (.slatPct, .i 4, 1), (.precision, .i 8, 1), (.pctList, .fp, 20), (.map, .i 8, 7), (.submit, .i 8, 7), (.complete, .i 8, 7),
   (.latN, .i 8, 10), (.latU, .i 8, 10), (.latM, .i 8, 12), (.plat, .i 8, 3 * 3 * plNr), (.syncPlat, .i 8, plNr), (.total, .i 8, 4),
   (.short, .i 8, 3), (.drop, .i 8, 3), (.totalSubmit, .i 8, 1), (.totalComplete, .i 8, 1), (.ioBytes, .i 8, 3), (.runtime, .i 8, 3),
   (.totalRunTime, .i 8, 1), (.contOnError, .i 2, 1), (.totalErr, .i 8, 1), (.firstError, .i 4, 1), (.kbBase, .i 4, 1),
   (.unitBase, .i 4, 1), (.sigFigs, .i 4, 1), (.zoneResets, .i 8, 1), (.countZone, .i 2, 1), (.latDepth, .i 4, 1),
   (.latTarget, .i 8, 1), (.latWindow, .i 8, 1), (.latPercentile, .fp, 1), (.nrBlock, .i 8, 1), (.ssDur, .i 8, 1),
   (.ssState, .i 4, 1), (.ssHead, .i 4, 1), (.ssLimit, .fp, 1), (.ssSlope, .fp, 1), (.ssDev, .fp, 1), (.ssCrit, .fp, 1),
   (.nrPrio, .i 4, 3), (.hit, .i 8, 1), (.miss, .i 8, 1)] ++ recvGs

/-- /repo/server.c:1717-1825: the struct; `memset` first.  The bound of the last loop is the converted number (1824); `none`: the loop leaves
the array. -/
def sendHead (fp : Fp) (be : Bool) (ts : Head) : Option Head :=
  let p := sendTab.foldl (send1 fp be ts) fun f _ => List.replicate (width f) 0
  let nb := dec be (p .nrBlock 0)
  if 8192 < nb then none
  else some (send1 fp be ts p (.block, .i 4, nb))

/-- /repo/client.c:959-1088 for the struct; `none`: a loop leaves the array. -/
def recvHead (fp : Fp) (be : Bool) (p : Head) : Option Head :=
  let p := recvTab.foldl (recv1 fp be) p
  let nb := dec be (p .nrBlock 0)
  if 8192 < nb then none
  else some (recv1 fp be p (.block, .i 4, nb))

/-! ## Strings -/

/-- The string in a `char` array. -/
def cstr (a : List Byte) : List Byte := a.takeWhile (· ≠ 0)

/-- /repo/server.c:1729-1732: `snprintf(dst, n, "%s", src)` into an array of `n` zeroes. -/
def snprintf (n : Nat) (src : List Byte) : List Byte :=
  let s := (cstr src).take (n - 1)
  s ++ List.replicate (n - s.length) 0

/-! ## Behind the struct -/

structure Ext where
  hs : Nat
  size : Nat
  mem : Nat → Byte

/-- The `w` bytes at address `a`. -/
def Ext.bytes (e : Ext) (a w : Nat) : List Byte := (List.range w).map fun k => e.mem (a + k)

def Ext.ok (e : Ext) (a w : Nat) : Prop := e.hs ≤ a ∧ a + w ≤ e.size

instance (e : Ext) (a w : Nat) : Decidable (e.ok a w) := by unfold Ext.ok; infer_instance

/-- `none`: outside of what is behind the struct. -/
def Ext.write (e : Ext) (a : Nat) (bs : List Byte) : Option Ext :=
  if e.ok a bs.length then
    some { e with mem := fun x => if a ≤ x ∧ x < a + bs.length then bs.getD (x - a) 0 else e.mem x }
  else none

/-- A member: its offset, its declared bytes, the conversion. -/
abbrev Op := Nat × Nat × C

def send (fp : Fp) (be : Bool) (base : Nat) (val : Nat → Nat) : List Op → Ext → Option Ext
  | [], e => some e
  | o :: os, e =>
    match e.write (base + o.1) (put fp be o.2.1 o.2.2 (val o.1)) with
    | none => none
    | some e => send fp be base val os e

def recv (fp : Fp) (be : Bool) (base : Nat) : List Op → Ext → Option Ext
  | [], e => some e
  | o :: os, e =>
    match e.write (base + o.1) (get fp be o.2.1 o.2.2 (e.bytes (base + o.1) o.2.1)) with
    | none => none
    | some e => recv fp be base os e

/-- `sizeof(struct clat_prio_stat)`, /repo/stat.h:160-164 with padding. -/
def psize : Nat := 8 * plNr + 64

/-- /repo/server.c:1867-1872: `io_u_plat`, `clat_stat` with `convert_io_stat` (a `fio_fp64_t` has 16 bytes), `ioprio`. -/
def sendPrioOps : List Op :=
  (List.range plNr).map (fun k => (8 * k, 8, .i 8)) ++
  [(8 * plNr, 8, .i 8), (8 * plNr + 8, 8, .i 8), (8 * plNr + 16, 8, .i 8), (8 * plNr + 24, 8, .fp), (8 * plNr + 40, 8, .fp),
   (8 * plNr + 56, 4, .i 4)]

/-- /repo/client.c:1067-1074 -/
def recvPrioOps : List Op :=
  (List.range plNr).map (fun k => (8 * k, 8, .i 8)) ++
  [(8 * plNr, 8, .i 8), (8 * plNr + 8, 8, .i 8), (8 * plNr + 16, 8, .i 8), (8 * plNr + 24, 8, .fp), (8 * plNr + 40, 8, .fp),
   (8 * plNr + 56, 4, .i 4)]

/-- /repo/server.c:1866-1875: `n` more elements, from the `j`th. -/
def sendPrios (fp : Fp) (be : Bool) (prio : Nat → Nat → Nat) : Nat → Nat → Nat → Ext → Option (Ext × Nat)
  | 0, _, wp, e => some (e, wp)
  | n + 1, j, wp, e =>
    match send fp be wp (prio j) sendPrioOps e with
    | none => none
    | some e => sendPrios fp be prio n (j + 1) (wp + psize) e

/-- What the server has of a job: the struct, the strings (`name`, `verror`, `description`), the statistics of priorities by direction,
number and offset, and the rings of the steady state. -/
structure Ts where
  h : Head
  name : List Byte
  verror : List Byte
  desc : List Byte
  prio : Nat → Nat → Nat → Nat
  iops : Nat → Nat
  bw : Nat → Nat
  lat : Nat → Nat

/-- A message. -/
structure Msg where
  h : Head
  name : List Byte
  verror : List Byte
  desc : List Byte
  e : Ext

def setEl (h : Head) (f : F) (i : Nat) (bs : List Byte) : Head := fun g k => if g = f ∧ k = i then bs else h g k

/-- /repo/server.c:1863-1886 -/
def sendDirs (fp : Fp) (be : Bool) (ts : Ts) : List Nat → Head → Nat → Ext → Option (Head × Nat × Ext)
  | [], h, wp, e => some (h, wp, e)
  | i :: is, h, wp, e =>
    let n := dec be (ts.h .nrPrio i)
    match sendPrios fp be (ts.prio i) n 0 wp e with
    | none => none
    | some (e, wp') =>
      let h := if n ≠ 0 then
          setEl (setEl h .prioOff i (enc be 8 (swapLe be 8 wp))) .nrPrio i (enc be 4 (swapLe be 4 n))
        else h
      sendDirs fp be ts is h wp' e

/-- An array of `n` 64 bit numbers. -/
def arrOps (n : Nat) : List Op := (List.range n).map fun k => (8 * k, 8, .i 8)

/-- /repo/server.c:1888-1924 -/
def sendSs (fp : Fp) (be : Bool) (ts : Ts) (dur : Nat) (h : Head) (wp : Nat) (e : Ext) : Option (Head × Ext) :=
  match send fp be wp (fun a => ts.iops (a / 8)) (arrOps dur) e with
  | none => none
  | some e =>
    let h := setEl h .ssIopsOff 0 (enc be 8 (swapLe be 8 wp))
    let wp := wp + 8 * dur
    match send fp be wp (fun a => ts.bw (a / 8)) (arrOps dur) e with
    | none => none
    | some e =>
      let h := setEl h .ssBwOff 0 (enc be 8 (swapLe be 8 wp))
      let wp := wp + 8 * dur
      match send fp be wp (fun a => ts.lat (a / 8)) (arrOps dur) e with
      | none => none
      | some e => some (setEl h .ssLatOff 0 (enc be 8 (swapLe be 8 wp)), e)

/-- /repo/steadystate.h:47-65 `FIO_SS_DATA` -/
def hasData (state : Nat) : Bool := state.testBit 5

/-- /repo/server.c:1715-1928 `fio_server_send_ts`.  `none`: a write leaves its object, or an `int` runs over. -/
def serverSend (fp : Fp) (be : Bool) (hs : Nat) (ts : Ts) : Option Msg :=
  match sendHead fp be ts.h with
  | none => none
  | some h =>
    let n i := dec be (ts.h .nrPrio i)
    let dur := dec be (ts.h .ssDur 0)
    let prioSize := (n 0 * psize + n 1 * psize + n 2 * psize) % 2 ^ 64
    let ssSize := if hasData (dec be (ts.h .ssState 0)) then 3 * dur * 8 % 2 ^ 64 else 0
    let name := snprintf 128 ts.name
    let verror := snprintf 128 ts.verror
    let desc := snprintf 256 ts.desc
    if (prioSize + ssSize) % 2 ^ 64 = 0 then some ⟨h, name, verror, desc, ⟨hs, hs, fun _ => 0⟩⟩
    else
      let e : Ext := ⟨hs, (prioSize + ssSize + hs) % 2 ^ 64, fun _ => 0⟩
      match (if prioSize ≠ 0 then sendDirs fp be ts [0, 1, 2] h hs e else some (h, hs, e)) with
      | none => none
      | some (h, wp, e) =>
        if ssSize ≠ 0 then
          if 2 ^ 31 ≤ dur then none
          else
            match sendSs fp be ts dur h wp e with
            | none => none
            | some (h, e) => some ⟨h, name, verror, desc, e⟩
        else some ⟨h, name, verror, desc, e⟩

/-! ## The client -/

/-- /repo/client.c:1065-1076 for one direction. -/
def recvPrios (fp : Fp) (be : Bool) (ptr : Nat) : Nat → Nat → Ext → Option Ext
  | 0, _, e => some e
  | n + 1, j, e =>
    match recv fp be (ptr + j * psize) recvPrioOps e with
    | none => none
    | some e => recvPrios fp be ptr n (j + 1) e

def recvDirs (fp : Fp) (be : Bool) (h : Head) (ptr : Nat → Nat) : List Nat → Ext → Option Ext
  | [], e => some e
  | i :: is, e =>
    match recvPrios fp be (ptr i) (dec be (h .nrPrio i)) 0 e with
    | none => none
    | some e => recvDirs fp be h ptr is e

/-- /repo/client.c:1080-1084 -/
def recvSs (fp : Fp) (be : Bool) (pi pb pl : Nat) : Nat → Nat → Ext → Option Ext
  | 0, _, e => some e
  | n + 1, k, e =>
    match recv fp be 0 [(pi + 8 * k, 8, .i 8), (pb + 8 * k, 8, .i 8), (pl + 8 * k, 8, .i 8)] e with
    | none => none
    | some e => recvSs fp be pi pb pl n (k + 1) e

/-- What the client has then; the pointers are addresses in the payload. -/
structure Got where
  h : Head
  name : List Byte
  verror : List Byte
  desc : List Byte
  e : Ext
  prio : Nat → Nat
  iops : Nat
  bw : Nat
  lat : Nat

/-- /repo/client.c:1870-1898 with `convert_ts` 959-1088, in place. -/
def clientRecv (fp : Fp) (be : Bool) (m : Msg) : Option Got :=
  let ptr i := swapLe be 8 (dec be (m.h .prioOff i))
  let pi := swapLe be 8 (dec be (m.h .ssIopsOff 0))
  let pb := swapLe be 8 (dec be (m.h .ssBwOff 0))
  let pl := swapLe be 8 (dec be (m.h .ssLatOff 0))
  match recvHead fp be m.h with
  | none => none
  | some h =>
    match recvDirs fp be h ptr [0, 1, 2] m.e with
    | none => none
    | some e =>
      let r := if hasData (dec be (h .ssState 0)) then recvSs fp be pi pb pl (dec be (h .ssDur 0)) 0 e else some e
      match r with
      | none => none
      | some e => some ⟨h, m.name, m.verror, m.desc, e, ptr, pi, pb, pl⟩

end Fio.TsNet
