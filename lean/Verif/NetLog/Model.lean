import Verif.TsNet.Lemmas
import Verif.NetLog.Spec
/-!
# Logs of samples sent from a server to the client (server.c, client.c, iolog.c)

Memory is bytes and both hosts may have either byte order (`true`: big endian); both are 64 bit hosts.  A read or write outside a buffer is
`none`.  zlib is given: what the calls of `deflate` put out, and what `inflate` makes of bytes.  Not modelled: a failing `malloc`,
`smalloc`, `open` or `write`, the lists of histogram entries a histogram log points to and how their text is printed, how the messages
are cut and joined (C37), the locks, the GUI.
-/

namespace Fio.NetLog
open Fio.TsNet (enc dec swapLe)

/-- /repo/iolog.h:197-208 `__log_entry_sz`; `struct io_sample` of /repo/iolog.h:51-58 has 40 bytes. -/
def esz (off iss : Bool) : Nat := 40 + (if off then 8 else 0) + (if iss then 8 else 0)

/-- /repo/iolog.c:894-907: `log_ddir_mask`, with the bits of /repo/iolog.h:170-183. -/
def mask (c : Cfg) : Nat :=
  (if c.offset then 0x80000000 else 0) + (if c.prio then 0x40000000 else 0) + (if c.avgMax then 0x20000000 else 0)
    + (if c.issue then 0x10000000 else 0)

/-- A sample in the memory of a host: /repo/iolog.h:51-66, `__ddir` as /repo/iolog.h:190-195 sets it (the direction has none of the bits
of the mask, so the or is a sum).  `aux[]` has the time of issue behind the offset; without `log_offset` there is no time of issue
(/repo/init.c:1769-1772, 1797-1800). -/
def smpB (be : Bool) (c : Cfg) (s : Smp) : List Byte :=
  enc be 8 s.time ++ (enc be 8 s.val0 ++ (enc be 8 s.val1 ++ (enc be 4 (s.dir + mask c) ++ (enc be 2 s.prio ++ ([0, 0] ++ (enc be 8 s.bs
    ++ ((if c.offset then enc be 8 s.off else []) ++ (if c.issue then enc be 8 s.iss else []))))))))

/-! ## Conversion of the samples in place -/

/-- `x = cpu_to_leN(x)` and `x = leN_to_cpu(x)` of the `w` bytes at `a`. -/
def swapAt (be : Bool) (a w : Nat) (m : List Byte) : Option (List Byte) :=
  if a + w ≤ m.length then
    some (m.take a ++ (enc be w (swapLe be w (dec be ((m.drop a).take w))) ++ m.drop (a + w)))
  else none

/-- A store of `w` bytes at `a`. -/
def clearAt (a w : Nat) (m : List Byte) : Option (List Byte) :=
  if a + w ≤ m.length then some (m.take a ++ (List.replicate w 0 ++ m.drop (a + w))) else none

/-- The conversions of the fields of a sample. -/
def swaps (be : Bool) (base : Nat) : List (Nat × Nat) → List Byte → Option (List Byte)
  | [], m => some m
  | (o, w) :: fs, m => (swapAt be (base + o) w m).bind (swaps be base fs)

/-- /repo/iolog.h:68-75 `IO_LOG_TYPE_HIST` -/
def histT : Nat := 6

/-- /repo/server.c:2328-2344: the fields converted by the server. -/
def srvF (hist off iss : Bool) : List (Nat × Nat) :=
  [(0, 8)] ++ (if hist then [] else [(8, 8), (16, 8)]) ++ [(24, 4), (32, 8)] ++ (if off then [(40, 8)] else []) ++ (if iss then [(48, 8)] else [])

/-- /repo/client.c:1767-1782: the fields converted by the client. -/
def cliF (hist off iss : Bool) : List (Nat × Nat) :=
  [(0, 8)] ++ (if hist then [] else [(8, 8), (16, 8)]) ++ [(24, 4), (32, 8), (28, 2)] ++ (if off then [(40, 8)] else [])
    ++ (if iss then [(48, 8)] else [])

/-- /repo/stat.h:35, 345-348: `sizeof(struct io_u_plat_entry)`. -/
def platSz : Nat := 16 + 8 * 1856

/-- /repo/server.c:2326-2344: the loop over the samples of one `io_logs`, from sample `i`. -/
def srvConv (be hist off iss : Bool) : Nat → Nat → List Byte → Option (List Byte)
  | _, 0, m => some m
  | i, n + 1, m => (swaps be (i * esz off iss) (srvF hist off iss) m).bind (srvConv be hist off iss (i + 1) n)

/-- /repo/client.c:1760-1790: the loop over the samples.  In a histogram log the pointer and the list head of the entry behind the sample
are stored. -/
def cliConv (be hist off iss : Bool) : Nat → Nat → List Byte → Option (List Byte)
  | _, 0, m => some m
  | i, n + 1, m =>
    let base := i * esz off iss + (if hist then i * platSz else 0)
    (swaps be base (cliF hist off iss) m).bind fun m =>
      if hist then
        ((clearAt (base + 8) 8 m).bind (clearAt (base + 40) 16)).bind (cliConv be hist off iss (i + 1) n)
      else cliConv be hist off iss (i + 1) n m

/-! ## Printing -/

/-- A number of `w` bytes at `a`. -/
def rd (be : Bool) (m : List Byte) (a w : Nat) : Option Nat :=
  if a + w ≤ m.length then some (dec be ((m.drop a).take w)) else none

/-- `%llu`, `%u`, `PRIu64` -/
def fU (n : Nat) : List Char := Nat.toDigits 10 n

/-- `PRId64` of an unsigned number of 64 bits -/
def fD (n : Nat) : List Char := if n < 0x8000000000000000 then fU n else '-' :: fU (0x10000000000000000 - n)

/-- `0x%04x` -/
def fX (n : Nat) : List Char := ['0', 'x'] ++ List.replicate (4 - (Nat.toDigits 16 n).length) '0' ++ Nat.toDigits 16 n

/-- /repo/iolog.c:1032-1049 `print_sample_fields`, one call after the other: `none` when the buffer of 256 bytes is too small. -/
def put (buf : List Char) : List (List Char) → Option (List Char)
  | [] => some buf
  | f :: fs => if 256 - buf.length ≤ f.length then none else put (buf ++ f) fs

/-- What a call of `flush_samples` has found out about the log: /repo/iolog.c:1072-1076. -/
def bits (w : Nat) : Cfg :=
  { offset := w / 0x80000000 % 2 = 1, prio := w / 0x40000000 % 2 = 1, avgMax := w / 0x20000000 % 2 = 1, issue := w / 0x10000000 % 2 = 1 }

/-- The fields printed for the sample at `b`: /repo/iolog.c:1081-1126; `ioprio_value_is_class_rt` of /repo/os/os-linux.h:127, 141, 159-162. -/
def fields (be : Bool) (c : Cfg) (m : List Byte) (b : Nat) : Option (List (List Char)) := do
  let t ← rd be m b 8
  let v0 ← rd be m (b + 8) 8
  let v1 ← rd be m (b + 16) 8
  let d ← rd be m (b + 24) 4
  let bs ← rd be m (b + 32) 8
  let off ← if c.offset then rd be m (b + 40) 8 else some 0
  let p ← rd be m (b + 28) 2
  let iss ← if c.issue then rd be m (b + 48) 8 else some 0
  some ([fU t ++ (", ".toList ++ fD v0)] ++ (if c.avgMax then [", ".toList ++ fD v1] else [])
    ++ [", ".toList ++ (fU (d % 0x10000000) ++ (", ".toList ++ fU bs))] ++ (if c.offset then [", ".toList ++ fU off] else [])
    ++ [", ".toList ++ (if c.prio then fX p else fU (if p / 8192 = 1 then 1 else 0))] ++ (if c.issue then [", ".toList ++ fU iss] else []))

/-- The loop of /repo/iolog.c:1080-1131 from sample `i`; it ends when a line does not fit. -/
def lines (be : Bool) (c : Cfg) (m : List Byte) : Nat → Nat → Option (List Char)
  | _, 0 => some []
  | i, n + 1 =>
    (fields be c m (i * esz c.offset c.issue)).bind fun fs =>
      match put [] fs with
      | none => some []
      | some l => (lines be c m (i + 1) n).map (l ++ ['\n'] ++ ·)

/-- /repo/iolog.c:1059-1132 `flush_samples`: the text written. -/
def flush (be : Bool) (m : List Byte) (size : Nat) : Option (List Char) :=
  if size = 0 then some []
  else (rd be m 24 4).bind fun w => lines be (bits w) m 0 (size / esz (bits w).offset (bits w).issue)

/-! ## The log -/

/-- /repo/iolog.h:91-166 `struct io_log` of a job. -/
structure Log where
  cfg : Cfg
  type : Nat
  coarse : Nat
  name : List Byte
  /-- the samples of the `io_logs` -/
  bufs : List (List Smp)
  /-- `chunk_list`: the compressed chunks -/
  chunks : List (List Byte)

/-- The buffer of an `io_logs`. -/
def bufB (be : Bool) (c : Cfg) (ss : List Smp) : List Byte := (ss.map (smpB be c)).flatten

/-- /repo/iolog.c:1431-1444 in `flush_log` when there are no compressed chunks and the log is not one of histograms: what is written on a
host that keeps its logs. -/
def local' (be : Bool) (l : Log) : Option (List Char) :=
  l.bufs.foldr (fun ss r => (flush be (bufB be l.cfg ss) (ss.length * esz l.cfg.offset l.cfg.issue)).bind fun t => r.map (t ++ ·)) (some [])

/-! ## The server -/

/-- The header /repo/server.h:193-205 as bytes. -/
structure Hdr where
  nr : List Byte
  thread : List Byte
  type : List Byte
  comp : List Byte
  off : List Byte
  prio : List Byte
  iss : List Byte
  coarse : List Byte
  perJob : List Byte
  name : List Byte

/-- zlib: the bytes put out by each of the calls `deflate(Z_BLOCK)` and the bytes that are put out with `Z_FINISH` behind them; what
`inflate` puts out when it is given bytes, `none` for a data error. -/
structure Z where
  outs : List (List Byte)
  fin : List Byte
  infl : List Byte → Option (List Byte)

/-- /repo/server.h:56 `FIO_SERVER_MAX_FRAGMENT_PDU` -/
def frag : Nat := 1024

/-- What is left of the buffer of the last call when the first `deflate(Z_FINISH)` of /repo/server.c:2203 is made; without a call there is
no buffer. -/
def room : List (List Byte) → Nat
  | [] => 0
  | [o] => frag - o.length
  | _ :: os => room os

/-- /repo/server.c:2180-2236 `fio_append_iolog_gz` with /repo/server.c:2134-2178: the bytes of the entries.  The first call with `Z_FINISH`
writes behind the bytes of the last entry, whose length is already set; the calls of the loop have entries. -/
def gz (z : Z) : List Byte := z.outs.flatten ++ z.fin.drop (room z.outs)

/-- `.compressed`: /repo/server.h:189-190, /repo/server.c:2307-2312 -/
def compOf (zlib : Bool) (l : Log) : Nat := if l.chunks ≠ [] then 2 else if zlib then 1 else 0

/-- /repo/server.c:2314 `snprintf` to the 256 bytes of `name`. -/
def nameOf (n : List Byte) : List Byte := n.take 255

/-- The header as /repo/server.c:2296-2314 sets it; members that are not set are 0. -/
def hdr (be zlib : Bool) (thread perJob : Nat) (l : Log) : Hdr :=
  let n4 (v : Nat) := enc be 4 (swapLe be 4 v)
  { nr := enc be 8 (swapLe be 8 ((l.bufs.map List.length).sum % 2 ^ 64)), thread := n4 thread, type := n4 l.type, comp := n4 (compOf zlib l),
    off := n4 0, prio := n4 0, iss := n4 0, coarse := n4 l.coarse, perJob := n4 perJob, name := nameOf l.name }

/-- /repo/server.c:2294-2369 `fio_send_iolog`: the header and what is behind it. -/
def send (be zlib : Bool) (thread perJob : Nat) (z : Z) (l : Log) : Option (Hdr × List Byte) :=
  let bufs := l.bufs.foldr
    (fun ss r => (srvConv be (l.type == histT) l.cfg.offset l.cfg.issue 0 ss.length (bufB be l.cfg ss)).bind fun b => r.map (b ++ ·)) (some [])
  bufs.map fun b => (hdr be zlib thread perJob l, if l.chunks ≠ [] then l.chunks.flatten else if zlib then gz z else b)

/-! ## The client -/

/-- The number of a header member on the client: /repo/client.c:1744-1753. -/
def hv (be : Bool) (b : List Byte) : Nat := swapLe be b.length (dec be b)

/-- /repo/client.c:1632-1705 `convert_iolog_gz`: the samples behind the header, as many bytes as the header says; where `inflate` puts out
less the allocated memory has what it had (`junk`). -/
def gunzip (be : Bool) (z : Z) (junk : Nat → Byte) (h : Hdr) (pay : List Byte) : Option (List Byte) :=
  let e := esz (hv be h.off ≠ 0) (hv be h.iss ≠ 0)
  let total := hv be h.nr * (if dec be h.type = histT then e + platSz else e)
  (z.infl pay).map fun o => o.take total ++ (List.range (total - o.length)).map fun i => junk (o.length + i)

/-- What the client does with the log. -/
inductive Out
  | text (t : List Char)
  | raw (b : List Byte)
  | hist (m : List Byte)
deriving DecidableEq, Repr

/-- /repo/client.c:1714-1794 `convert_iolog` and /repo/client.c:1469-1557 `fio_client_handle_iolog`: what is written to the file (behind
what is there if the second component is false), and its name.  The text of a histogram log is left out. -/
def handle (be : Bool) (z : Z) (junk : Nat → Byte) (host : List Byte) (h : Hdr) (pay : List Byte) : Option (List Byte × Bool × Out) :=
  let comp := hv be h.comp
  let hist := hv be h.type == histT
  let nr := hv be h.nr
  let fname := h.name ++ ([46] ++ host)
  let trunc : Bool := hv be h.perJob ≠ 0
  if comp = 2 then some (fname, trunc, .raw pay)
  else
    ((if comp = 1 then gunzip be z junk h pay else some pay).bind
      (cliConv be hist (hv be h.off ≠ 0) (hv be h.iss ≠ 0) 0 nr)).bind fun m =>
      if hist then some (fname, trunc, .hist m)
      else (flush be m (nr * 40)).map fun t => (fname, trunc, .text t)

end Fio.NetLog
