import Verif.Cconv.Model
/-!
What should arrive: the options of the sender.
-/

namespace Fio.Cconv

open Fio.TsNet (C Fp)
open Fio

/-- Options the receiver does not take from a message; where a second declaration exists in `struct thread_options_pack` the place is
unused (/repo/thread_options.h:453, 455, 463, 473-474, 506, 582, 710). -/
def kept : List F := [.size_nz, .io_size_nz, .start_offset_nz, .zone_skip_nz, .offset_increment_nz, .ignore_error_nr, .error_dump,
  .verify_state_save, .magic, .verify_fmt_sz, .verify_only, .start_delay_orig, .numa_mem_mode, .numa_mem_prefer_node,
  .read_iolog_chunked, .read_beyond_wp, .job_max_open_zones, .zrt, .zrf]

/-- Options the receiver takes from a message into which the sender did not put them. -/
def junk : List F := [.log_hist_msec, .log_hist_coarseness, .ss_dur, .ss_ramp_time, .ss_state, .ss_check_interval]

/-- Arrays of which only a part is used, or which belong to lists. -/
def lists : List F := [.dp_ids, .bssplit_bs, .bssplit_perc, .zone_split_access, .zone_split_perc, .random_sequence_arr]

/-- Strings that are not sent. -/
def keptStr : List S := [.ioengine_so_path, .numa_cpunodes, .numa_memnodes]

/-- Which options are doubles, /repo/thread_options.h. -/
def isFp : F → Bool
  | .spr_over_provisioning | .zipf_theta | .pareto_h | .gauss_dev | .random_center | .ss_limit | .percentile_list
  | .merge_blktrace_scalars | .merge_blktrace_iters | .latency_percentile | .zrt | .zrf => true
  | _ => false

/-- Options as they are after parsing: numbers fit their types, doubles survive `pack754` and `unpack754` (C51), strings have no zero
inside, lists are as long as their numbers say and fit into the message (/repo/options.c:145, 301, 481, 1203, 1361), patterns are smaller
than 128 MiB. -/
structure Ok (fp : Fp) (o : Opts) : Prop where
  num : ∀ f i, i < cnt f → o.num f i < 256 ^ optW f
  dbl : ∀ f i, isFp f → i < cnt f → fp.unpack (fp.pack (o.num f i)) = o.num f i
  str : ∀ s x, o.str s = some x → (0 : Byte) ∉ x
  bss : ∀ i, i < 3 → o.num .bssplit_nr i ≤ 64 ∧ o.num .bssplit_nr i = (o.bss i).length
  bssv : ∀ i, i < 3 → ∀ x ∈ o.bss i, x.1 < 256 ^ 8 ∧ x.2 < 256 ^ 4
  zs : ∀ i, i < 3 → o.num .zone_split_nr i ≤ 256 ∧ o.num .zone_split_nr i = (o.zs i).length
  zsv : ∀ i, i < 3 → ∀ x ∈ o.zs i, x.1 < 256 ∧ x.2.1 < 256
  seq : o.num .random_sequence_nr 0 ≤ 64 ∧ o.num .random_sequence_nr 0 = o.seq.length
  seqv : ∀ x ∈ o.seq, x < 256 ^ 4
  dp : o.num .dp_nr_ids 0 ≤ 128
  vpat : o.num .verify_pattern_bytes 0 = o.vpat.length ∧ o.vpat.length < 2 ^ 27
  bpat : o.num .buffer_pattern_bytes 0 = o.bpat.length ∧ o.bpat.length < 2 ^ 27

/-- What is left of a string: its first 255 bytes; an empty string, or none, leaves what the receiver had. -/
def cutStr (old : Option (List Byte)) : Option (List Byte) → Option (List Byte)
  | some (c :: x) => some ((c :: x).take 255)
  | _ => old

/-- The receiver, which had `o`, now has the options of the sender `a`, except those of the lists above. -/
structure Arrived (o a r : Opts) : Prop where
  num : ∀ f, f ∉ kept → f ∉ junk → f ∉ lists → ∀ i, i < cnt f → r.num f i = a.num f i
  str : ∀ s, s ∉ keptStr → r.str s = cutStr (o.str s) (a.str s)
  bss : ∀ i, i < 3 → a.bss i ≠ [] → r.bss i = a.bss i
  zs : ∀ i, i < 3 → a.zs i ≠ [] → (r.zs i).map (fun x => (x.1, x.2.1)) = (a.zs i).map fun x => (x.1, x.2.1)
  seq : a.seq ≠ [] → r.seq = a.seq
  dp : ∀ i, i < a.num .dp_nr_ids 0 → r.num .dp_ids i = a.num .dp_ids i
  vpat : r.vpat = a.vpat
  bpat : r.bpat = a.bpat

end Fio.Cconv
