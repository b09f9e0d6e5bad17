import Verif.Cconv.Spec

namespace Fio.Cconv

open Fio.TsNet (C Fp dec put get)
open Fio

/-! ## The tables -/

/-- All fields. -/
def allF : List F := [
  .magic, .set_options, .td_ddir, .rw_seq, .kb_base, .unit_base, .ddir_seq_nr, .ddir_seq_add, .iodepth, .iodepth_low, .iodepth_batch,
  .iodepth_batch_complete_min, .iodepth_batch_complete_max, .serialize_overlap, .unique_filename, .size, .io_size, .size_percent,
  .size_nz, .io_size_percent, .io_size_nz, .fill_device, .file_append, .file_size_low, .file_size_high, .start_offset,
  .start_offset_align, .start_offset_nz, .bs, .ba, .min_bs, .max_bs, .bssplit_nr, .ignore_error_nr, .error_dump, .nr_files,
  .open_files, .filetype, .file_lock_mode, .odirect, .oatomic, .invalidate_cache, .create_serialize, .create_fsync, .create_on_open,
  .create_only, .end_fsync, .end_syncfs, .pre_read, .sync_io, .write_hint, .verify, .verify_policy, .do_verify, .verify_interval,
  .verify_offset, .verify_pattern_bytes, .verify_pattern_interval, .verify_fmt_sz, .verify_fatal, .verify_dump, .verify_async,
  .verify_backlog, .verify_batch, .experimental_verify, .verify_state, .verify_state_save, .verify_write_sequence, .verify_header_seed,
  .use_thread, .unlink, .unlink_each_loop, .do_disk_util, .override_sync, .rand_repeatable, .rand_seed, .log_avg_msec, .log_hist_msec,
  .log_hist_coarseness, .log_max, .log_offset, .log_gz, .log_gz_store, .log_alternate_epoch, .log_alternate_epoch_clock_id,
  .norandommap, .softrandommap, .sprandom, .spr_num_regions, .spr_cache_size, .spr_over_provisioning, .bs_unaligned, .fsync_on_close,
  .bs_is_seq_rand, .verify_only, .random_distribution, .random_sequence_nr, .random_sequence_stride, .exitall_error, .zone_split_nr,
  .zipf_theta, .pareto_h, .gauss_dev, .random_center, .random_generator, .perc_rand, .hugepage_size, .rw_min_bs, .fsync_blocks,
  .fdatasync_blocks, .barrier_blocks, .start_delay, .start_delay_orig, .start_delay_high, .timeout, .ramp_time, .ramp_size, .ss_state,
  .ss_limit, .ss_dur, .ss_ramp_time, .ss_check_interval, .overwrite, .bw_avg_time, .iops_avg_time, .loops, .zone_range, .zone_size,
  .zone_capacity, .zone_skip, .zone_skip_nz, .zone_mode, .lockmem, .mem_type, .mem_align, .max_latency, .exit_what, .stonewall,
  .new_group, .numjobs, .cpus_allowed_policy, .numa_mem_mode, .numa_mem_prefer_node, .gpu_dev_id, .start_offset_percent, .iolog,
  .rwmixcycle, .rwmix, .nice, .ioprio, .ioprio_class, .ioprio_hint, .file_service_type, .group_reporting, .stats, .fadvise_hint,
  .fallocate_mode, .zero_buffers, .refill_buffers, .scramble_buffers, .buffer_pattern_bytes, .compress_percentage, .compress_chunk,
  .dedupe_percentage, .dedupe_mode, .dedupe_working_set_percentage, .dedupe_global, .time_based, .disable_lat, .disable_clat,
  .disable_slat, .disable_bw, .unified_rw_rep, .gtod_reduce, .gtod_cpu, .job_start_clock_id, .clocksource, .no_stall, .trim_percentage,
  .trim_batch, .trim_zero, .trim_backlog, .clat_percentiles, .slat_percentiles, .lat_percentiles, .percentile_precision,
  .percentile_list, .read_iolog_chunked, .merge_blktrace_scalars, .merge_blktrace_iters, .write_bw_log, .write_lat_log,
  .write_iops_log, .write_hist_log, .thinkcycles, .thinktime, .thinktime_spin, .thinktime_blocks, .thinktime_blocks_type,
  .thinktime_iotime, .rate, .ratemin, .ratecycle, .io_submit_mode, .rate_iops, .rate_iops_min, .rate_process, .rate_ign_think,
  .continue_on_error, .cgroup_weight, .cgroup_nodelete, .uid, .gid, .offset_increment_percent, .offset_increment_nz, .offset_increment,
  .number_ios, .num_range, .sync_file_range, .latency_target, .latency_window, .latency_run, .latency_percentile, .flow_id, .flow,
  .flow_sleep, .sig_figs, .block_error_hist, .replay_align, .replay_scale, .replay_time_scale, .replay_skip, .per_job_logs,
  .allow_create, .allow_mounted_write, .read_beyond_wp, .max_open_zones, .job_max_open_zones, .ignore_zone_limits,
  .recover_zbd_write_error, .write_zone_remainder, .zrt, .zrf, .fdp, .dp_type, .dp_id_select, .dp_ids, .dp_nr_ids, .log_entries,
  .log_prio, .log_issue_time, .bssplit_bs, .bssplit_perc, .zone_split_access, .zone_split_perc, .random_sequence_arr]

theorem mem_all (f : F) : f ∈ allF := by
  cases f <;> decide +kernel

/-- How a field is to be converted. -/
def conv (f : F) : C := if isFp f then .fp else .i (optW f)

theorem conv_width (f : F) : (conv f).width = optW f := by
  cases f <;> rfl

theorem packW_eq (f : F) (h : f ∉ kept) (h' : f ∉ lists) : packW f = optW f := by
  exact (by decide +kernel : ∀ f ∈ allF, f ∉ kept → f ∉ lists → packW f = optW f) f (mem_all f) h h'

theorem netTab_nodup : (netTab.map Asg.dst).Nodup := by decide +kernel
theorem cpuTab_nodup : ((cpuTabA ++ cpuTabB).map Asg.dst).Nodup := by decide +kernel

theorem netTab_all (f : F) (h : f ∉ kept) (h1 : f ∉ junk) (h2 : f ∉ lists) : (⟨f, f, false, conv f, cnt f⟩ : Asg) ∈ netTab := by
  exact (by decide +kernel : ∀ f ∈ allF, f ∉ kept → f ∉ junk → f ∉ lists → (⟨f, f, false, conv f, cnt f⟩ : Asg) ∈ netTab)
    f (mem_all f) h h1 h2

theorem cpuTab_all (f : F) (h : f ∉ kept) (h2 : f ∉ lists) : (⟨f, f, false, conv f, cnt f⟩ : Asg) ∈ cpuTabA ++ cpuTabB := by
  exact (by decide +kernel : ∀ f ∈ allF, f ∉ kept → f ∉ lists → (⟨f, f, false, conv f, cnt f⟩ : Asg) ∈ cpuTabA ++ cpuTabB)
    f (mem_all f) h h2

theorem cpuTab_kept (f : F) (h : f ∈ kept ∨ f ∈ lists) : ∀ a ∈ cpuTabA ++ cpuTabB, a.dst ≠ f := by
  exact (by decide +kernel : ∀ f ∈ allF, f ∈ kept ∨ f ∈ lists → ∀ a ∈ cpuTabA ++ cpuTabB, a.dst ≠ f) f (mem_all f) h

theorem netTab_other (f : F) (h : f ∈ kept ∨ f ∈ lists) : ∀ a ∈ netTab, a.dst ≠ f := by
  exact (by decide +kernel : ∀ f ∈ allF, f ∈ kept ∨ f ∈ lists → ∀ a ∈ netTab, a.dst ≠ f) f (mem_all f) h

end Fio.Cconv
