import Verif.Common.Le
import Verif.Crc.Model
/-
Model of the messages between fio client and server: /repo/server.c and /repo/server.h.

A connection is the list of bytes that have been written and not yet read.  How many bytes a writev
or recv moves is up to the kernel and a parameter (`Wr`, `Rd`), one entry per system call.  `none` is an
access outside of a buffer, or the list of system call results was used up: the call still waits.

Not modelled: allocation failures, the list of replies that are waited for, dprint and log_err,
compression of logs.
-/
namespace Fio.Net
open Crc (crc16)

/-- FIO_SERVER_VER, server.h:54. -/
def version : Nat := 121

/-- FIO_SERVER_MAX_FRAGMENT_PDU, server.h:56. -/
def maxFrag : Nat := 1024

/-- FIO_SERVER_MAX_CMD_MB, server.h:57. -/
def maxCmdMb : Nat := 2048

/-- FIO_NET_CMD_JOB, server.h:61. -/
def opJob : Nat := 3

/-- FIO_NET_CMD_TEXT, server.h:63. -/
def opText : Nat := 5

/-- The first 20 bytes of struct fio_net_cmd (server.h:34-39), those that are checksummed
(FIO_NET_CMD_CRC_SZ, server.h:86), as __fio_init_net_cmd fills them, server.c:180-189.  The fields are
cut to their width. -/
def head (op tag flags len : Nat) : List Byte :=
  le 2 version ++ le 2 op ++ le 4 flags ++ le 8 tag ++ le 4 len

/-- The command of a fragment with its checksums, server.c:192-199 and 499-507. -/
def cmdOf (op tag flags : Nat) (pdu : List Byte) : List Byte :=
  let h := head op tag flags pdu.length
  h ++ le 2 (crc16 h).toNat ++ le 2 (crc16 pdu).toNat

/-- The result of a writev: the kernel takes up to `n` bytes (0: it returns 0), EAGAIN or EINTR, or the
loop of fio_sendv_data ends (another error, or `exit_backend`). -/
inductive Wr where
  | wrote (n : Nat)
  | again
  | stop
  deriving DecidableEq

/-- The inner loop of fio_sendv_data, server.c:236-245: `done` are the entries of the array before the
pointer `iov`, `cur` those from it on, each with the bytes it points to. -/
def iovAdvance : (done cur : List (List Byte)) → Nat → Option (List (List Byte) × List (List Byte))
  | done, cur, 0 => some (done, cur)
  | _, [], _ + 1 => none
  | done, v :: cur, n + 1 =>
    if v.length ≤ n + 1 then iovAdvance (done ++ [v]) cur (n + 1 - v.length)
    else some (done, v.drop (n + 1) :: cur)

/-- fio_sendv_data, server.c:224-259: the bytes sent, whether all were sent, the array `iov` as it was
left, and the system calls to come. -/
def sendv : List Wr → (done cur : List (List Byte)) → (total : Nat) →
    Option (List Byte × Bool × List (List Byte) × List Wr)
  | [], _, _, _ => none
  | .wrote n :: env, done, cur, total =>
    let k := Nat.min n cur.flatten.length
    if k = 0 then some ([], decide (total = 0), done ++ cur, env)
    else if total - k = 0 then some (cur.flatten.take k, true, done ++ cur, env)
    else
      match iovAdvance done cur k with
      | none => none
      | some (done', cur') =>
        (sendv env done' cur' (total - k)).map fun r => (cur.flatten.take k ++ r.1, r.2)
  | .again :: env, done, cur, total => sendv env done cur total
  | .stop :: env, done, cur, total => some ([], decide (total = 0), done ++ cur, env)

/-- FIO_NET_CMD_F_MORE is bit 0, server.h:83. -/
def moreFlag (rest : List Byte) : Nat := if rest = [] then 0 else 1

/-- The loop of fio_net_send_cmd, server.c:528-551: one buffer per fragment. -/
def sendLoop (op tag : Nat) : (fuel : Nat) → List Wr → (payload : List Byte) →
    Option (List Byte × Bool × List Wr)
  | 0, _, _ => none
  | fuel + 1, env, payload =>
    let p := payload.take maxFrag
    let rest := payload.drop maxFrag
    let buf := cmdOf op tag (moreFlag rest) p ++ p
    match sendv env [] [buf] buf.length with
    | none => none
    | some (out, ok, _, env') =>
      if ok = true ∧ rest ≠ [] then
        (sendLoop op tag fuel env' rest).map fun r => (out ++ r.1, r.2)
      else some (out, ok, env')

/-- fio_net_send_cmd, server.c:514-563; there are fewer fragments than bytes. -/
def sendCmd (op tag : Nat) (env : List Wr) (payload : List Byte) :
    Option (List Byte × Bool × List Wr) :=
  sendLoop op tag (payload.length + 1) env payload

/-- The loop of fio_send_cmd_ext_pdu, server.c:1242-1261: `iov[0]` is set up once, before the loop; `o`
is how far it has been moved into `cmd` by fio_sendv_data. -/
def extLoop (op tag flags : Nat) : (fuel : Nat) → (o : Nat) → List Wr → (payload : List Byte) →
    Option (List Byte × Bool × List Wr)
  | 0, _, _, _ => none
  | fuel + 1, o, env, payload =>
    let p := payload.take maxFrag
    let rest := payload.drop maxFrag
    let cmd := cmdOf op tag (flags ||| moreFlag rest) p
    match sendv env [] [cmd.drop o, p] ((cmd.drop o).length + p.length) with
    | none => none
    | some (out, ok, iov, env') =>
      if ok = true ∧ rest ≠ [] then
        (extLoop op tag flags fuel (24 - (iov.headD []).length) env' rest).map
          fun r => (out ++ r.1, r.2)
      else some (out, ok, env')

/-- fio_send_cmd_ext_pdu, server.c:1231-1264. -/
def sendExt (op tag flags : Nat) (env : List Wr) (payload : List Byte) :
    Option (List Byte × Bool × List Wr) :=
  extLoop op tag flags (payload.length + 1) 0 env payload

/-- send_vec_entry, server.c:1286-1311: an entry and those chained to it, each with its opcode, tag and
bytes.  `true` if no part failed; like the C code it goes on after a failure. -/
def sendVec (env : List Wr) : List (Nat × Nat × List Byte) → Option (List Byte × Bool × List Wr)
  | [] => some ([], true, env)
  | (op, tag, buf) :: es =>
    match sendExt op tag (if es = [] then 0 else 1) env buf with
    | none => none
    | some (out, ok, env') =>
      (sendVec env' es).map fun r => (out ++ r.1, ok && r.2.1, r.2.2)

/-- The result of a recv: up to `n` bytes are there, EAGAIN or EINTR, or the loop of fio_recv_data ends
(the peer closed the connection, another error, or `exit_backend`). -/
inductive Rd where
  | got (n : Nat)
  | again
  | stop
  deriving DecidableEq

/-- fio_recv_data, server.c:290-321: whether all bytes came, the bytes, the bytes not yet read, the
system calls to come. -/
def recvData (wait : Bool) : List Rd → (stream : List Byte) → (len : Nat) →
    Option (Bool × List Byte × List Byte × List Rd)
  | [], _, _ => none
  | .got n :: env, s, len =>
    let k := Nat.min n (Nat.min len s.length)
    if k = 0 then some (decide (len = 0), [], s, env)
    else if len - k = 0 then some (true, s.take k, s.drop k, env)
    else (recvData wait env (s.drop k) (len - k)).map fun r => (r.1, s.take k ++ r.2.1, r.2.2)
  | .again :: env, s, len =>
    if wait then recvData wait env s len else some (decide (len = 0), [], s, env)
  | .stop :: env, s, len => some (decide (len = 0), [], s, env)

/-- The field of `n` bytes at offset `off`. -/
def field (h : List Byte) (off n : Nat) : Nat := fromLe ((h.drop off).take n)

/-- verify_convert_cmd, server.c:323-365: `true` if the command is accepted. -/
def validCmd (h : List Byte) : Bool :=
  if (crc16 (h.take 20)).toNat ≠ field h 20 2 then false
  else if field h 0 2 ≠ version then false
  else if field h 16 4 > maxFrag then false
  else true

/-- The command that fio_net_recv_cmd assembles (`cmdret`): the fields that are used and the payload. -/
structure Msg where
  opcode : Nat
  flags : Nat
  tag : Nat
  pduLen : Nat
  pay : List Byte
  deriving DecidableEq

/-- The payload received so far; `cmd_size` (server.c:388-392) is this and the next length plus 25. -/
def soFar (acc : Option Msg) : Nat := match acc with | some m => m.pay.length | none => 0

/-- The loop of fio_net_recv_cmd, server.c:378-443.  `acc` is `cmdret`, NULL in the first round; the
inner `none` is an error.  Every round that goes on reads 24 bytes at least, so the bytes there are
enough fuel. -/
def recvLoop (wait : Bool) : (fuel : Nat) → List Rd → List Byte → (acc : Option Msg) →
    Option (Option Msg × List Byte × List Rd)
  | 0, _, _, _ => none
  | fuel + 1, env, s, acc =>
    match recvData wait env s 24 with
    | none => none
    | some (false, _, s, env) => some (none, s, env)
    | some (true, h, s, env) =>
      if !validCmd h then some (none, s, env)
      else
        let op := field h 2 2
        let len := field h 16 4
        if (24 + (soFar acc + len) + 1) / 1024 > maxCmdMb * 1024 then some (none, s, env)
        else if acc.any (fun m => decide (m.opcode ≠ op)) then some (none, s, env)
        else
          let m := acc.getD ⟨op, field h 4 4, field h 8 8, 0, []⟩
          if len = 0 then some (some m, s, env)
          else
            match recvData wait env s len with
            | none => none
            | some (false, _, s, env) => some (none, s, env)
            | some (true, pdu, s, env) =>
              if (crc16 pdu).toNat ≠ field h 22 2 then some (none, s, env)
              else
                let m := { m with pduLen := m.pduLen + len, pay := m.pay ++ pdu }
                if field h 4 4 % 2 = 1 then recvLoop wait fuel env s (some m)
                else some (some m, s, env)

/-- `int len = le32_to_cpu(...)`, server.c:455 and 461. -/
def int32 (n : Nat) : Int := if n < 2 ^ 31 then n else (n : Int) - 2 ^ 32

/-- `buf[len] = 0` where `buf` is `off` bytes into the payload and `len` is stored at `at_`; the buffer
has one byte more than the payload. -/
def terminate (buf : List Byte) (at_ off : Nat) : Option (List Byte) :=
  (memRead buf at_ 4).bind fun b =>
    let i : Int := off + int32 (fromLe b)
    if i < 0 then none else memWrite buf i.toNat [0#8]

/-- The end of fio_net_recv_cmd, server.c:445-469: the terminating zero for text (the payload is a
struct cmd_text_pdu, server.h:164-170) and job files (struct cmd_job_pdu, server.h:143-147), and the
MORE flag is cleared.  `g` is the byte behind the payload, which is not initialised. -/
def finish (g : Byte) (m : Msg) : Option Msg :=
  let buf := m.pay ++ [g]
  let r := if m.pduLen ≠ 0 ∧ m.opcode = opText then terminate buf 4 24
    else if m.pduLen ≠ 0 ∧ m.opcode = opJob then terminate buf 0 8
    else some buf
  r.map fun buf => { m with pay := buf, flags := m.flags - m.flags % 2 }

/-- fio_net_recv_cmd, server.c:370-472: the command (NULL is the inner `none`), what is left to read. -/
def recvCmd (wait : Bool) (g : Byte) (env : List Rd) (s : List Byte) :
    Option (Option Msg × List Byte × List Rd) :=
  match recvLoop wait (s.length + 1) env s none with
  | none => none
  | some (none, s, env) => some (none, s, env)
  | some (some m, s, env) => (finish g m).map fun m => (some m, s, env)

end Fio.Net
