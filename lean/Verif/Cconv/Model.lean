import Verif.TsNet.Lemmas
/-!
`convert_thread_options_to_net` and `convert_thread_options_to_cpu` (/repo/cconv.c:14-397, 399-721): the options of a job on their way
between client and server (/repo/client.c:928-944, /repo/server.c:1105-1126, 2369-2385, /repo/gclient.c:561).

A number of `struct thread_options` (/repo/thread_options.h:76-422) is its bit pattern (`num f i` is element `i` of field `f`); an array
behind a pointer is a list, reading behind its end is `none`.  A number of `struct thread_options_pack` (/repo/thread_options.h:426-763) is
its bytes.  Both hosts may have either byte order.  Doubles are their 64 bit patterns, `pack754` and `unpack754` are given (C51).
Assignments to different fields that do not depend on each other are in tables in their order.  Not modelled: `malloc` that fails,
`verify_fmt`, the cpu masks, the numbers behind `ignore_error`, the printed messages, and the memory that is lost when a pointer is
overwritten.  Reading or writing outside of an array is `none`.
-/

namespace Fio.Cconv

open Fio.TsNet (C Fp dec put get)
open Fio

/-- Fields that are numbers or arrays of numbers: /repo/thread_options.h:76-422.  The last five are the arrays of
`struct thread_options_pack` for which `struct thread_options` has a pointer (469, 536, 545). -/
inductive F
  | magic | set_options | td_ddir | rw_seq | kb_base | unit_base | ddir_seq_nr | ddir_seq_add | iodepth | iodepth_low | iodepth_batch
  | iodepth_batch_complete_min | iodepth_batch_complete_max | serialize_overlap | unique_filename | size | io_size | size_percent
  | size_nz | io_size_percent | io_size_nz | fill_device | file_append | file_size_low | file_size_high | start_offset
  | start_offset_align | start_offset_nz | bs | ba | min_bs | max_bs | bssplit_nr | ignore_error_nr | error_dump | nr_files
  | open_files | filetype | file_lock_mode | odirect | oatomic | invalidate_cache | create_serialize | create_fsync | create_on_open
  | create_only | end_fsync | end_syncfs | pre_read | sync_io | write_hint | verify | verify_policy | do_verify | verify_interval
  | verify_offset | verify_pattern_bytes | verify_pattern_interval | verify_fmt_sz | verify_fatal | verify_dump | verify_async
  | verify_backlog | verify_batch | experimental_verify | verify_state | verify_state_save | verify_write_sequence | verify_header_seed
  | use_thread | unlink | unlink_each_loop | do_disk_util | override_sync | rand_repeatable | rand_seed | log_avg_msec | log_hist_msec
  | log_hist_coarseness | log_max | log_offset | log_gz | log_gz_store | log_alternate_epoch | log_alternate_epoch_clock_id
  | norandommap | softrandommap | sprandom | spr_num_regions | spr_cache_size | spr_over_provisioning | bs_unaligned | fsync_on_close
  | bs_is_seq_rand | verify_only | random_distribution | random_sequence_nr | random_sequence_stride | exitall_error | zone_split_nr
  | zipf_theta | pareto_h | gauss_dev | random_center | random_generator | perc_rand | hugepage_size | rw_min_bs | fsync_blocks
  | fdatasync_blocks | barrier_blocks | start_delay | start_delay_orig | start_delay_high | timeout | ramp_time | ramp_size | ss_state
  | ss_limit | ss_dur | ss_ramp_time | ss_check_interval | overwrite | bw_avg_time | iops_avg_time | loops | zone_range | zone_size
  | zone_capacity | zone_skip | zone_skip_nz | zone_mode | lockmem | mem_type | mem_align | max_latency | exit_what | stonewall
  | new_group | numjobs | cpus_allowed_policy | numa_mem_mode | numa_mem_prefer_node | gpu_dev_id | start_offset_percent | iolog
  | rwmixcycle | rwmix | nice | ioprio | ioprio_class | ioprio_hint | file_service_type | group_reporting | stats | fadvise_hint
  | fallocate_mode | zero_buffers | refill_buffers | scramble_buffers | buffer_pattern_bytes | compress_percentage | compress_chunk
  | dedupe_percentage | dedupe_mode | dedupe_working_set_percentage | dedupe_global | time_based | disable_lat | disable_clat
  | disable_slat | disable_bw | unified_rw_rep | gtod_reduce | gtod_cpu | job_start_clock_id | clocksource | no_stall | trim_percentage
  | trim_batch | trim_zero | trim_backlog | clat_percentiles | slat_percentiles | lat_percentiles | percentile_precision
  | percentile_list | read_iolog_chunked | merge_blktrace_scalars | merge_blktrace_iters | write_bw_log | write_lat_log
  | write_iops_log | write_hist_log | thinkcycles | thinktime | thinktime_spin | thinktime_blocks | thinktime_blocks_type
  | thinktime_iotime | rate | ratemin | ratecycle | io_submit_mode | rate_iops | rate_iops_min | rate_process | rate_ign_think
  | continue_on_error | cgroup_weight | cgroup_nodelete | uid | gid | offset_increment_percent | offset_increment_nz | offset_increment
  | number_ios | num_range | sync_file_range | latency_target | latency_window | latency_run | latency_percentile | flow_id | flow
  | flow_sleep | sig_figs | block_error_hist | replay_align | replay_scale | replay_time_scale | replay_skip | per_job_logs
  | allow_create | allow_mounted_write | read_beyond_wp | max_open_zones | job_max_open_zones | ignore_zone_limits
  | recover_zbd_write_error | write_zone_remainder | zrt | zrf | fdp | dp_type | dp_id_select | dp_ids | dp_nr_ids | log_entries
  | log_prio | log_issue_time | bssplit_bs | bssplit_perc | zone_split_access | zone_split_perc | random_sequence_arr
deriving DecidableEq, Repr

/-- The strings, /repo/thread_options.h:76-422. -/
inductive S
  | description | name | wait_for | directory | filename | filename_format | opendir | ioengine | ioengine_so_path | mmapfile
  | numa_cpunodes | numa_memnodes | comm | read_iolog_file | write_iolog_file | merge_blktrace_file | bw_log_file | lat_log_file
  | iops_log_file | hist_log_file | replay_redirect | exec_prerun | exec_postrun | ioscheduler | profile | cgroup | dp_scheme_file
deriving DecidableEq, Repr

/-- Sizes in bytes of the elements in `struct thread_options`, /repo/thread_options.h:76-422. -/
def optW : F → Nat
  | .set_options | .ddir_seq_add | .size | .io_size | .file_size_low | .file_size_high | .start_offset | .start_offset_align | .bs
  | .ba | .min_bs | .max_bs | .verify_backlog | .rand_seed | .spr_cache_size | .spr_over_provisioning | .zipf_theta | .pareto_h
  | .gauss_dev | .random_center | .rw_min_bs | .start_delay | .start_delay_orig | .start_delay_high | .timeout | .ramp_time
  | .ramp_size | .ss_limit | .ss_dur | .ss_ramp_time | .ss_check_interval | .zone_range | .zone_size | .zone_capacity | .zone_skip
  | .lockmem | .max_latency | .trim_backlog | .percentile_list | .merge_blktrace_scalars | .merge_blktrace_iters | .rate | .ratemin
  | .offset_increment | .number_ios | .latency_target | .latency_window | .latency_percentile | .zrt | .zrf => 8
  | .numa_mem_mode | .dp_ids => 2
  | .read_iolog_chunked => 1
  | _ => 4

/-- Sizes in bytes of the elements in `struct thread_options_pack`, /repo/thread_options.h:426-763; 60-70 for the splits. -/
def packW : F → Nat
  | .set_options | .ddir_seq_add | .size | .io_size | .file_size_low | .file_size_high | .start_offset | .start_offset_align | .bs
  | .ba | .min_bs | .max_bs | .verify_backlog | .rand_seed | .spr_cache_size | .spr_over_provisioning | .zipf_theta | .pareto_h
  | .gauss_dev | .random_center | .rw_min_bs | .start_delay | .start_delay_high | .timeout | .ramp_time | .ramp_size | .ss_dur
  | .ss_ramp_time | .ss_limit | .ss_check_interval | .zone_range | .zone_size | .zone_capacity | .zone_skip | .lockmem | .trim_backlog
  | .percentile_list | .merge_blktrace_scalars | .merge_blktrace_iters | .rate | .ratemin | .offset_increment | .number_ios
  | .latency_target | .latency_window | .max_latency | .latency_percentile => 8
  | .dp_ids => 2
  | .bssplit_bs => 8
  | .zone_split_access | .zone_split_perc => 1
  | _ => 4

/-- Numbers of elements, the same in both structs: /repo/thread_options.h:44-46, 72, 76-763, /repo/options.h:4, /repo/stat.h:36,
/repo/io_ddir.h:17, /repo/dataplacement.h:8, /repo/td_error.h:14. -/
def cnt : F → Nat
  | .set_options => 8
  | .bs | .ba | .min_bs | .max_bs | .bssplit_nr | .ignore_error_nr | .zone_split_nr | .perc_rand | .max_latency | .rwmix | .rate
  | .ratemin | .rate_iops | .rate_iops_min => 3
  | .percentile_list | .merge_blktrace_scalars | .merge_blktrace_iters => 20
  | .dp_ids => 128
  | .bssplit_bs | .bssplit_perc => 3 * 64
  | .zone_split_access | .zone_split_perc => 3 * 256
  | .random_sequence_arr => 64
  | _ => 1

/-- `struct thread_options`: the numbers, the strings, `bssplit`, `zone_split` (access, percentage and absolute size), `random_sequence`,
`verify_pattern` and `buffer_pattern`. -/
structure Opts where
  num : F → Nat → Nat
  str : S → Option (List Byte)
  bss : Nat → List (Nat × Nat)
  zs : Nat → List (Nat × Nat × Nat)
  seq : List Nat
  vpat : List Byte
  bpat : List Byte

/-- `struct thread_options_pack`: the numbers, the strings (256 bytes each, /repo/thread_options.h:424), `patterns`. -/
structure Pack where
  num : F → Nat → List Byte
  str : S → List Byte
  pat : List Byte

/-- The line `dst = conv(src)` in its loop over `n` elements; `own`: the source is in the struct that is written. -/
structure Asg where
  dst : F
  src : F
  own : Bool
  c : C
  n : Nat
deriving DecidableEq, Repr

/-- One number of 64 bits from the other struct. -/
def q (f : F) : Asg := ⟨f, f, false, .i 8, 1⟩
/-- An array of numbers of 64 bits from the other struct. -/
def qs (f : F) (n : Nat) : Asg := ⟨f, f, false, .i 8, n⟩
/-- One number of 32 bits from the other struct. -/
def d (f : F) : Asg := ⟨f, f, false, .i 4, 1⟩
/-- An array of numbers of 32 bits from the other struct. -/
def ds (f : F) (n : Nat) : Asg := ⟨f, f, false, .i 4, n⟩
/-- A double from the other struct. -/
def fp (f : F) : Asg := ⟨f, f, false, .fp, 1⟩
/-- An array of doubles from the other struct. -/
def fps (f : F) (n : Nat) : Asg := ⟨f, f, false, .fp, n⟩
/-- A number from the struct that is written. -/
def own (f : F) (c : C) : Asg := ⟨f, f, true, c, 1⟩

/-! ## Sending -/

/-- One line of `convert_thread_options_to_net`. -/
def net1 (fp : Fp) (be : Bool) (o : F → Nat → Nat) (t : F → Nat → List Byte) (a : Asg) : F → Nat → List Byte :=
  fun g i => if g = a.dst ∧ i < a.n then put fp be (packW g) a.c (if a.own then dec be (t a.src i) else o a.src i) else t g i

/-- /repo/cconv.c:404-475 -/
def netTab1 : List Asg := [
    qs .set_options 8, d .allow_create, d .allow_mounted_write, d .td_ddir, d .rw_seq, d .kb_base, d .unit_base, d .ddir_seq_nr,
    d .iodepth, d .iodepth_low, d .iodepth_batch, d .iodepth_batch_complete_min, d .iodepth_batch_complete_max, d .serialize_overlap,
    d .size_percent, d .io_size_percent, d .fill_device, d .file_append, d .ratecycle, d .io_submit_mode, d .nr_files,
    d .unique_filename, d .open_files, d .file_lock_mode, d .odirect, d .oatomic, d .invalidate_cache, d .create_serialize,
    d .create_fsync, d .create_on_open, d .create_only, d .filetype, d .end_fsync, d .end_syncfs, d .pre_read, d .sync_io,
    d .write_hint, d .verify, d .verify_policy, d .do_verify, d .experimental_verify, d .verify_state, d .verify_interval,
    d .verify_offset, d .verify_write_sequence]

/-- /repo/cconv.c:476-545 -/
def netTab2 : List Asg := [
    d .verify_header_seed, d .verify_pattern_bytes, d .verify_pattern_interval, d .verify_fatal, d .verify_dump, d .verify_async,
    d .verify_batch, d .use_thread, d .unlink, d .unlink_each_loop, d .do_disk_util, d .override_sync, d .rand_repeatable,
    q .rand_seed, d .log_entries, d .log_avg_msec, d .log_max, d .log_offset, d .log_prio, d .log_issue_time, d .log_gz,
    d .log_gz_store, d .log_alternate_epoch, d .log_alternate_epoch_clock_id, d .job_start_clock_id, d .norandommap, d .softrandommap,
    d .sprandom, d .spr_num_regions, fp .spr_over_provisioning, q .spr_cache_size, d .bs_unaligned, d .fsync_on_close,
    d .bs_is_seq_rand, d .random_distribution, d .random_sequence_nr, d .random_sequence_stride, d .exitall_error, fp .zipf_theta,
    fp .pareto_h, fp .gauss_dev, fp .random_center, d .random_generator, d .hugepage_size, q .rw_min_bs, d .thinkcycles, d .thinktime,
    d .thinktime_spin, d .thinktime_blocks, d .thinktime_blocks_type, d .thinktime_iotime, d .fsync_blocks, d .fdatasync_blocks,
    d .barrier_blocks, d .overwrite, d .bw_avg_time, d .iops_avg_time, d .loops, d .mem_type, d .mem_align, d .exit_what]

/-- /repo/cconv.c:546-612 -/
def netTab3 : List Asg := [
    d .stonewall, d .new_group, d .numjobs, d .cpus_allowed_policy, d .gpu_dev_id, d .iolog, d .rwmixcycle, d .nice, d .ioprio,
    d .ioprio_class, d .ioprio_hint, d .file_service_type, d .group_reporting, d .stats, d .fadvise_hint, d .fallocate_mode,
    d .zero_buffers, d .refill_buffers, d .scramble_buffers, d .buffer_pattern_bytes, d .time_based, d .disable_lat, d .disable_clat,
    d .disable_slat, d .disable_bw, d .unified_rw_rep, d .gtod_reduce, d .gtod_cpu, d .clocksource, d .no_stall, d .trim_percentage,
    d .trim_batch, d .trim_zero, d .clat_percentiles, d .lat_percentiles, d .slat_percentiles, d .percentile_precision, d .sig_figs,
    d .continue_on_error, d .cgroup_weight, d .cgroup_nodelete, d .uid, d .gid, d .flow_id, d .flow, d .flow_sleep, d .sync_file_range,
    q .latency_target, q .latency_window, fp .latency_percentile, d .latency_run, d .compress_percentage, d .compress_chunk,
    d .dedupe_percentage, d .dedupe_mode, d .dedupe_working_set_percentage, d .dedupe_global, d .block_error_hist, d .replay_align,
    d .replay_scale, d .replay_time_scale, d .replay_skip, d .per_job_logs, d .write_bw_log, d .write_lat_log, d .write_iops_log,
    d .write_hist_log]

/-- /repo/cconv.c:614-658 -/
def netTab4 : List Asg := [
    qs .bs 3, qs .ba 3, qs .min_bs 3, qs .max_bs 3, ds .bssplit_nr 3, ds .zone_split_nr 3, ds .rwmix 3, qs .rate 3, qs .ratemin 3,
    ds .rate_iops 3, ds .rate_iops_min 3, ds .perc_rand 3, qs .max_latency 3]

/-- /repo/cconv.c:660-720 -/
def netTab5 : List Asg := [
    q .size, q .io_size, d .num_range, q .verify_backlog, q .start_delay, q .start_delay_high, q .timeout, q .ramp_time, q .ramp_size,
    own .ss_dur (.i 8), own .ss_ramp_time (.i 8), own .ss_state (.i 4), fp .ss_limit, own .ss_check_interval (.i 8), q .zone_range,
    q .zone_size, q .zone_capacity, q .zone_skip, d .zone_mode, d .max_open_zones, d .ignore_zone_limits, d .recover_zbd_write_error,
    d .write_zone_remainder, q .lockmem, q .ddir_seq_add, q .file_size_low, q .file_size_high, q .start_offset, q .start_offset_align,
    d .start_offset_percent, q .trim_backlog, d .offset_increment_percent, q .offset_increment, q .number_ios, d .rate_process,
    d .rate_ign_think, fps .percentile_list 20, fps .merge_blktrace_scalars 20, fps .merge_blktrace_iters 20, d .fdp, d .dp_type,
    d .dp_id_select, d .dp_nr_ids]

/-- All numbers that are sent, but the lists. -/
def netTab : List Asg := netTab1 ++ netTab2 ++ netTab3 ++ netTab4 ++ netTab5

/-- /repo/cconv.c:407-430, destination and source. -/
def netStr : List (S × S) := [
    (.description, .description), (.name, .name), (.wait_for, .wait_for), (.directory, .directory), (.filename, .filename),
    (.filename_format, .filename_format), (.opendir, .opendir), (.ioengine, .ioengine), (.mmapfile, .mmapfile), (.comm, .comm),
    (.read_iolog_file, .read_iolog_file), (.write_iolog_file, .write_iolog_file), (.merge_blktrace_file, .merge_blktrace_file),
    (.bw_log_file, .bw_log_file), (.lat_log_file, .lat_log_file), (.iops_log_file, .iops_log_file), (.hist_log_file, .hist_log_file),
    (.replay_redirect, .replay_redirect), (.exec_prerun, .exec_prerun), (.exec_postrun, .exec_postrun), (.ioscheduler, .ioscheduler),
    (.profile, .profile), (.cgroup, .cgroup), (.dp_scheme_file, .dp_scheme_file)]

/-- /repo/cconv.c:14-20 `__string_to_net` with the size 256 of every destination (22): `snprintf` writes at most 255 bytes and a zero. -/
def strNet (old : List Byte) (s : Option (List Byte)) : List Byte :=
  match s with
  | some x => x.take 255 ++ 0 :: old.drop ((x.take 255).length + 1)
  | none => 0 :: old.drop 1

/-- One line of /repo/cconv.c:407-430. -/
def strNet1 (o : S → Option (List Byte)) (t : S → List Byte) (p : S × S) : S → List Byte :=
  fun s => if s = p.1 then strNet (t s) (o p.2) else t s

/-- A loop over `n` elements of the list `l`, into `f` from `base` on. -/
def netList (fp : Fp) (be : Bool) (f : F) (c : C) (base n : Nat) (l : List Nat) (t : F → Nat → List Byte) : Option (F → Nat → List Byte) :=
  if l.length < n then none
  else some fun g i => if g = f ∧ base ≤ i ∧ i < base + n then put fp be (packW f) c (l.getD (i - base) 0) else t g i

/-- /repo/cconv.c:621-632: the block size splits of one direction. -/
def netBss (fp : Fp) (be : Bool) (o : Opts) (t : F → Nat → List Byte) (i : Nat) : Option (F → Nat → List Byte) := do
  let n := min (o.num .bssplit_nr i) 64
  let t ← netList fp be .bssplit_bs (.i 8) (64 * i) n ((o.bss i).map (·.1)) t
  netList fp be .bssplit_perc (.i 4) (64 * i) n ((o.bss i).map (·.2)) t

/-- /repo/cconv.c:636-647: the zone splits of one direction; bytes are not converted. -/
def netZs (fp : Fp) (be : Bool) (o : Opts) (t : F → Nat → List Byte) (i : Nat) : Option (F → Nat → List Byte) := do
  let n := min (o.num .zone_split_nr i) 256
  let t ← netList fp be .zone_split_access (.i 1) (256 * i) n ((o.zs i).map (·.1)) t
  netList fp be .zone_split_perc (.i 1) (256 * i) n ((o.zs i).map (·.2.1)) t

/-- /repo/cconv.c:714-715: the loop leaves the array with more than 128 identifiers. -/
def netDp (fp : Fp) (be : Bool) (o : Opts) (t : F → Nat → List Byte) : Option (F → Nat → List Byte) :=
  if cnt .dp_ids < o.num .dp_nr_ids 0 then none
  else some (net1 fp be o.num t ⟨.dp_ids, .dp_ids, false, .i 2, o.num .dp_nr_ids 0⟩)

/-- /repo/cconv.c:660-662: both patterns. -/
def netPat (o : Opts) : Option (List Byte) :=
  if o.vpat.length < o.num .verify_pattern_bytes 0 ∨ o.bpat.length < o.num .buffer_pattern_bytes 0 then none
  else some (o.vpat.take (o.num .verify_pattern_bytes 0) ++ o.bpat.take (o.num .buffer_pattern_bytes 0))

/-- /repo/cconv.c:399-721 `convert_thread_options_to_net`.  The memory of `t` is what `malloc` returned
(/repo/client.c:935, /repo/server.c:2375). -/
def toNet (fp : Fp) (be : Bool) (t : Pack) (o : Opts) : Option Pack := do
  let m := netTab.foldl (net1 fp be o.num) t.num
  let m ← netList fp be .random_sequence_arr (.i 4) 0 (min (o.num .random_sequence_nr 0) 64) o.seq m
  let m ← netBss fp be o m 0
  let m ← netBss fp be o m 1
  let m ← netBss fp be o m 2
  let m ← netZs fp be o m 0
  let m ← netZs fp be o m 1
  let m ← netZs fp be o m 2
  let m ← netDp fp be o m
  let p ← netPat o
  return { num := m, str := netStr.foldl (strNet1 o.str) t.str, pat := p }

/-- /repo/cconv.c:65-69 `thread_options_pack_size`; `hs` is the size of the struct.  Client and server allocate as much
(/repo/client.c:931-935, /repo/server.c:2372-2375). -/
def packSize (hs : Nat) (o : F → Nat → Nat) : Nat := hs + o .verify_pattern_bytes 0 + o .buffer_pattern_bytes 0

/-! ## Receiving -/

/-- One line of `convert_thread_options_to_cpu`. -/
def cpu1 (fp : Fp) (be : Bool) (t : F → Nat → List Byte) (o : F → Nat → Nat) (a : Asg) : F → Nat → Nat :=
  fun g i => if g = a.dst ∧ i < a.n then dec be (get fp be (optW g) a.c (t a.src i)) else o g i

/-- /repo/cconv.c:77-130 -/
def cpuTab1 : List Asg := [
    qs .set_options 8, d .allow_create, d .allow_mounted_write, d .td_ddir, d .rw_seq, d .kb_base, d .unit_base, d .ddir_seq_nr,
    q .ddir_seq_add, d .iodepth, d .iodepth_low, d .iodepth_batch, d .iodepth_batch_complete_min, d .iodepth_batch_complete_max,
    d .serialize_overlap, q .size, q .io_size, d .num_range, d .size_percent, d .io_size_percent, d .fill_device, d .file_append,
    q .file_size_low, q .file_size_high, q .start_offset, q .start_offset_align, d .start_offset_percent]

/-- /repo/cconv.c:132-166 -/
def cpuTab2 : List Asg := [
    qs .bs 3, qs .ba 3, qs .min_bs 3, qs .max_bs 3, ds .bssplit_nr 3, ds .zone_split_nr 3, ds .rwmix 3, qs .rate 3, qs .ratemin 3,
    ds .rate_iops 3, ds .rate_iops_min 3, ds .perc_rand 3, qs .max_latency 3]

/-- /repo/cconv.c:168-199 -/
def cpuTab3 : List Asg := [
    d .ratecycle, d .io_submit_mode, d .unique_filename, d .nr_files, d .open_files, d .file_lock_mode, d .odirect, d .oatomic,
    d .invalidate_cache, d .create_serialize, d .create_fsync, d .create_on_open, d .create_only, d .filetype, d .end_fsync,
    d .end_syncfs, d .pre_read, d .sync_io, d .write_hint, d .verify, d .verify_policy, d .do_verify, d .experimental_verify,
    d .verify_state, d .verify_interval, d .verify_offset, d .verify_write_sequence, d .verify_header_seed, d .verify_pattern_bytes,
    d .verify_pattern_interval, d .buffer_pattern_bytes]

/-- /repo/cconv.c:213-270 -/
def cpuTab4 : List Asg := [
    d .verify_fatal, d .verify_dump, d .verify_async, d .verify_batch, d .use_thread, d .unlink, d .unlink_each_loop, d .do_disk_util,
    d .override_sync, d .rand_repeatable, q .rand_seed, d .log_entries, d .log_avg_msec, d .log_hist_msec, d .log_hist_coarseness,
    d .log_max, d .log_offset, d .log_prio, d .log_issue_time, d .log_gz, d .log_gz_store, d .log_alternate_epoch,
    d .log_alternate_epoch_clock_id, d .job_start_clock_id, d .norandommap, d .softrandommap, d .sprandom, d .spr_num_regions,
    fp .spr_over_provisioning, q .spr_cache_size, d .bs_unaligned, d .fsync_on_close, d .bs_is_seq_rand, d .random_distribution,
    d .random_sequence_nr, d .random_sequence_stride, d .exitall_error, fp .zipf_theta, fp .pareto_h, fp .gauss_dev, fp .random_center,
    d .random_generator, d .hugepage_size, q .rw_min_bs, d .thinkcycles, d .thinktime, d .thinktime_spin, d .thinktime_blocks,
    d .thinktime_blocks_type, d .thinktime_iotime, d .fsync_blocks, d .fdatasync_blocks, d .barrier_blocks]

/-- /repo/cconv.c:272-310 -/
def cpuTab5 : List Asg := [
    q .verify_backlog, q .start_delay, q .start_delay_high, q .timeout, q .ramp_time, q .ramp_size, q .ss_dur, q .ss_ramp_time,
    d .ss_state, fp .ss_limit, q .ss_check_interval, q .zone_range, q .zone_size, q .zone_capacity, q .zone_skip, d .zone_mode,
    d .max_open_zones, d .ignore_zone_limits, d .recover_zbd_write_error, d .write_zone_remainder, q .lockmem,
    d .offset_increment_percent, q .offset_increment, q .number_ios, d .overwrite, d .bw_avg_time, d .iops_avg_time, d .loops,
    d .mem_type, d .mem_align, d .exit_what, d .stonewall, d .new_group, d .numjobs, d .cpus_allowed_policy, d .gpu_dev_id, d .iolog,
    d .rwmixcycle]

/-- /repo/cconv.c:311-387 -/
def cpuTab6 : List Asg := [
    d .nice, d .ioprio, d .ioprio_class, d .ioprio_hint, d .file_service_type, d .group_reporting, d .stats, d .fadvise_hint,
    d .fallocate_mode, d .zero_buffers, d .refill_buffers, d .scramble_buffers, d .time_based, d .disable_lat, d .disable_clat,
    d .disable_slat, d .disable_bw, d .unified_rw_rep, d .gtod_reduce, d .gtod_cpu, d .clocksource, d .no_stall, d .trim_percentage,
    d .trim_batch, d .trim_zero, d .clat_percentiles, d .lat_percentiles, d .slat_percentiles, d .percentile_precision, d .sig_figs,
    d .continue_on_error, d .cgroup_weight, d .cgroup_nodelete, d .uid, d .gid, d .flow_id, d .flow, d .flow_sleep, d .sync_file_range,
    q .latency_target, q .latency_window, fp .latency_percentile, d .latency_run, d .compress_percentage, d .compress_chunk,
    d .dedupe_percentage, d .dedupe_mode, d .dedupe_working_set_percentage, d .dedupe_global, d .block_error_hist, d .replay_align,
    d .replay_scale, d .replay_time_scale, d .replay_skip, d .per_job_logs, d .write_bw_log, d .write_lat_log, d .write_iops_log,
    d .write_hist_log, q .trim_backlog, d .rate_process, d .rate_ign_think, fps .percentile_list 20, fps .merge_blktrace_scalars 20,
    fps .merge_blktrace_iters 20, d .fdp, d .dp_type, d .dp_id_select, d .dp_nr_ids]

/-- The numbers before the patterns are looked at. -/
def cpuTabA : List Asg := cpuTab1 ++ cpuTab2 ++ cpuTab3

/-- The numbers after it. -/
def cpuTabB : List Asg := cpuTab4 ++ cpuTab5 ++ cpuTab6

/-- /repo/cconv.c:80-103, destination and source. -/
def cpuStr : List (S × S) := [
    (.description, .description), (.name, .name), (.wait_for, .wait_for), (.directory, .directory), (.filename, .filename),
    (.filename_format, .filename_format), (.opendir, .opendir), (.ioengine, .ioengine), (.mmapfile, .mmapfile), (.comm, .comm),
    (.read_iolog_file, .read_iolog_file), (.write_iolog_file, .write_iolog_file), (.merge_blktrace_file, .merge_blktrace_file),
    (.bw_log_file, .bw_log_file), (.lat_log_file, .lat_log_file), (.iops_log_file, .iops_log_file), (.hist_log_file, .hist_log_file),
    (.replay_redirect, .replay_redirect), (.exec_prerun, .exec_prerun), (.exec_postrun, .exec_postrun), (.ioscheduler, .ioscheduler),
    (.profile, .profile), (.cgroup, .cgroup), (.dp_scheme_file, .dp_scheme_file)]

/-- /repo/cconv.c:6-12 `string_to_cpu`: a string without a zero in its 256 bytes is read past its end. -/
def strCpu (old : Option (List Byte)) (b : List Byte) : Option (Option (List Byte)) :=
  if b.contains 0 then
    let x := b.takeWhile (· != 0)
    some (if x.length != 0 then some x else old)
  else none

/-- /repo/cconv.c:80-103 -/
def strsCpu (t : S → List Byte) : List (S × S) → (S → Option (List Byte)) → Option (S → Option (List Byte))
  | [], o => some o
  | p :: ps, o => do
    let x ← strCpu (o p.1) (t p.2)
    strsCpu t ps fun s => if s = p.1 then x else o s

/-- A loop over `n` elements of an array with `lim` elements in `f` from `base` on, into numbers of `w` bytes. -/
def cpuList (fp : Fp) (be : Bool) (w : Nat) (c : C) (f : F) (base lim n : Nat) (t : F → Nat → List Byte) : Option (List Nat) :=
  if lim < n then none else some ((List.range n).map fun j => dec be (get fp be w c (t f (base + j))))

/-- /repo/cconv.c:139-145: nothing is done if there are none. -/
def cpuBss (fp : Fp) (be : Bool) (t : F → Nat → List Byte) (o : Opts) (i : Nat) : Option Opts :=
  let n := o.num .bssplit_nr i
  if n = 0 then some o
  else do
    let a ← cpuList fp be 8 (.i 8) .bssplit_bs (64 * i) 64 n t
    let b ← cpuList fp be 4 (.i 4) .bssplit_perc (64 * i) 64 n t
    return { o with bss := fun k => if k = i then a.zip b else o.bss k }

/-- /repo/cconv.c:149-155: nothing is done if there are none.  The size of an element is what is in the new memory, `junk`. -/
def cpuZs (fp : Fp) (be : Bool) (junk : Nat) (t : F → Nat → List Byte) (o : Opts) (i : Nat) : Option Opts :=
  let n := o.num .zone_split_nr i
  if n = 0 then some o
  else do
    let a ← cpuList fp be 1 (.i 1) .zone_split_access (256 * i) 256 n t
    let b ← cpuList fp be 1 (.i 1) .zone_split_perc (256 * i) 256 n t
    return { o with zs := fun k => if k = i then (a.zip b).map (fun x => (x.1, x.2, junk)) else o.zs k }

/-- /repo/cconv.c:248-252 -/
def cpuSeq (fp : Fp) (be : Bool) (t : F → Nat → List Byte) (o : Opts) : Option Opts :=
  let n := o.num .random_sequence_nr 0
  if n = 0 then some o
  else do
    let a ← cpuList fp be 4 (.i 4) .random_sequence_arr 0 64 n t
    return { o with seq := a }

/-- /repo/cconv.c:388-389: the loop leaves both arrays with more than 128 identifiers. -/
def cpuDp (fp : Fp) (be : Bool) (t : F → Nat → List Byte) (o : Opts) : Option Opts :=
  if cnt .dp_ids < o.num .dp_nr_ids 0 then none
  else some { o with num := cpu1 fp be t o.num ⟨.dp_ids, .dp_ids, false, .i 2, o.num .dp_nr_ids 0⟩ }

/-- /repo/lib/pattern.h:15 `MAX_PATTERN_SIZE` -/
def maxPat : Nat := 128 * 2 ^ 20

/-- /repo/cconv.c:71-397 `convert_thread_options_to_cpu` for a message with `sz` bytes from `top` on; the flag is false if it returns
`-EINVAL`.  The struct is read before the size is looked at, so a shorter message is read past its end. -/
def toCpu (fp : Fp) (be : Bool) (hs junk : Nat) (o : Opts) (t : Pack) (sz : Nat) : Option (Opts × Bool) :=
  if sz < hs then none
  else do
    let str ← strsCpu t.str cpuStr o.str
    let o := { o with str := str, num := cpuTabA.foldl (cpu1 fp be t.num) o.num }
    let o ← cpuBss fp be t.num o 0
    let o ← cpuBss fp be t.num o 1
    let o ← cpuBss fp be t.num o 2
    let o ← cpuZs fp be junk t.num o 0
    let o ← cpuZs fp be junk t.num o 1
    let o ← cpuZs fp be junk t.num o 2
    let vb := o.num .verify_pattern_bytes 0
    let bb := o.num .buffer_pattern_bytes 0
    if vb ≥ maxPat ∨ bb ≥ maxPat ∨ packSize hs o.num > sz then return (o, false)
    let o := { o with vpat := t.pat.take vb, bpat := (t.pat.drop vb).take bb }
    let o := { o with num := cpuTabB.foldl (cpu1 fp be t.num) o.num }
    let o ← cpuSeq fp be t.num o
    let o ← cpuDp fp be t.num o
    return (o, true)

end Fio.Cconv
