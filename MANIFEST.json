{
 "claims": [
  {
   "property": "C01",
   "status": "proved",
   "theorems": [
    "Fio.Axmap.C01_isset",
    "Fio.Axmap.C01_off_by_one"
   ],
   "note": "C01_off_by_one records that block number n itself is let through (out-of-bounds access when 64 divides n)."
  },
  {
   "property": "C02",
   "status": "proved",
   "theorems": [
    "Fio.Axmap.C02_set_nr"
   ],
   "note": ""
  },
  {
   "property": "C03",
   "status": "proved",
   "theorems": [
    "Fio.Axmap.C03_next_free"
   ],
   "note": ""
  },
  {
   "property": "C04",
   "status": "proved",
   "theorems": [
    "Fio.Axmap.C04_pass"
   ],
   "note": ""
  },
  {
   "property": "C05",
   "status": "proved",
   "theorems": [
    "Fio.Lfsr.C05_permutation",
    "Fio.Lfsr.C05_init"
   ],
   "note": "all register lengths 3..63, all spins; primitivity of each tap polynomial is proved from primality certificates. nums = 0 is excluded."
  },
  {
   "property": "C06",
   "status": "proved",
   "theorems": [
    "Fio.Lfsr.C06_reset",
    "Fio.Lfsr.C06_reset_general",
    "Fio.Lfsr.C06_spin_counterexample"
   ],
   "note": "C06_spin_counterexample shows that for a spin sharing a factor with the period the claim is false of the code."
  },
  {
   "property": "C07",
   "status": "proved",
   "theorems": [
    "Fio.Fifo.C07_fifo",
    "Fio.Fifo.C07_fifo_any_position"
   ],
   "note": ""
  },
  {
   "property": "C08",
   "status": "proved",
   "theorems": [
    "Fio.IouQueue.C08_ring",
    "Fio.IouQueue.C08_overfull_loses_units"
   ],
   "note": "C08_overfull_loses_units: the assertion in io_u_rpush does not catch an overfull ring, the units are lost."
  },
  {
   "property": "C09",
   "status": "proved",
   "theorems": [
    "Fio.IouQueue.C09_freelist"
   ],
   "note": ""
  },
  {
   "property": "C10",
   "status": "partial",
   "theorems": [
    "Fio.Dist.C10_zipf_pareto",
    "Fio.Dist.C10_zipf_rank",
    "Fio.Dist.C10_gauss_partial",
    "Fio.Dist.C10_gauss_value",
    "Fio.Dist.C10_gauss_hang"
   ],
   "note": "blocks are always below nranges; termination of gauss_next fails (C10_gauss_hang: two blocks, deviation 1, seed 2) and is characterised exactly. Floating point powers of zipf/pareto are an arbitrary 64-bit value."
  },
  {
   "property": "C11",
   "status": "partial",
   "theorems": [
    "Fio.Rand.C11_components_partial",
    "Fio.Rand.C11_dead_seeds32",
    "Fio.Rand.C11_default_seeds",
    "Fio.Rand.C11_counterexample"
   ],
   "note": "false for some seeds (C11_counterexample); exactly which seeds is proved, and that fio's default seeds are safe."
  },
  {
   "property": "C12",
   "status": "partial",
   "theorems": [
    "Fio.Rand.C12_between32_partial",
    "Fio.Rand.C12_between64_partial",
    "Fio.Rand.C12_top_draws",
    "Fio.Rand.C12_counterexample64",
    "Fio.Rand.C12_counterexample32"
   ],
   "note": "false for the top 1024 draws of the 64-bit generator and for 32-bit ranges of 2^31 or more; proved for everything else, with IEEE double rounding modelled."
  },
  {
   "property": "C13",
   "status": "proved",
   "theorems": [
    "Fio.Stat.C13_buckets",
    "Fio.Stat.C13_representatives"
   ],
   "note": "the double arithmetic of plat_idx_to_val is exact (at most 35 bits) and modelled by integers."
  },
  {
   "property": "C14",
   "status": "partial",
   "theorems": [
    "Fio.Stat.C14_percentiles",
    "Fio.Stat.C14_threshold",
    "Fio.Stat.C14_sync_counterexample"
   ],
   "note": "proved for every list of samples and percentiles when the sample count equals the histogram total; false for sync latencies after a ramp, where reset_io_stats clears the histogram but not the count (C14_sync_counterexample). Long double is any monotone rounding with 64 bits of precision."
  },
  {
   "property": "C15",
   "status": "partial",
   "theorems": [
    "Fio.Stat.C15_record",
    "Fio.Stat.C15_merge",
    "Fio.Stat.C15_merge_any_partial",
    "Fio.Stat.C15_counterexample"
   ],
   "note": "proved for fewer than 2^33 samples in total over exact arithmetic; false beyond, the product of the uint64_t counts wraps (C15_counterexample)."
  },
  {
   "property": "C16",
   "status": "proved",
   "theorems": [
    "Fio.Smalloc.C16",
    "Fio.Smalloc.C16_defined",
    "Fio.Smalloc.C16_zero",
    "Fio.Smalloc.C16_others",
    "Fio.Smalloc.C16_undefined",
    "Fio.Smalloc.C16_undefined_reached"
   ],
   "note": "One pool of any size on the level of bitmap words and bytes, for every history of allocations, frees and writes by the owners. Finding: find_next_zero shifts an int arithmetically, so allocations can reach ffz(-1) and shifts by 32 or more, which C leaves undefined (C16_undefined); the claim is proved for every execution that has a result under the C standard and for all executions where shift counts are taken modulo 32 or where ffz(-1) is 0. The choice among several pools is not modelled."
  },
  {
   "property": "C17",
   "status": "proved",
   "theorems": [
    "Fio.Smalloc.C17",
    "Fio.Smalloc.C17_restored"
   ],
   "note": "Same model as C16."
  },
  {
   "property": "C18",
   "status": "proved",
   "theorems": [
    "Fio.IoLog.C18",
    "Fio.IoLog.C18_newest",
    "Fio.IoLog.C18_ops",
    "Fio.IoLog.C18_len",
    "Fio.IoLog.C18_len_counterexample"
   ],
   "note": "log_io_piece, unlog_io_piece, the completion and get_next_verify on the pointer-level red-black tree: for every sequence of writes of at least one byte ending below 2^64 the history is sorted, disjoint and holds the record of a write iff no later write shares a byte with it; also for histories with completions, failures and verification. io_hist_len is exact unless a write fails after its record was replaced (counterexample given). The list used when writes cannot overlap is not modelled."
  },
  {
   "property": "C19",
   "status": "proved",
   "theorems": [
    "Fio.Verify.C19_accept",
    "Fio.Verify.C19_fields",
    "Fio.Verify.C19_single_bit"
   ],
   "note": "all header fields, padding and checksum; the header layout is that of 64-bit little-endian Linux."
  },
  {
   "property": "C20",
   "status": "proved",
   "theorems": [
    "Fio.Crc.C20_division",
    "Fio.Crc.C20_burst",
    "Fio.Crc.C20_single_bit",
    "Fio.Crc.C20_bytes",
    "Fio.Crc.C20_odd",
    "Fio.Crc.C20_crc7_range"
   ],
   "note": "software routines; the seven tables are transcribed entry by entry. The hardware and isa-l variants are not modelled."
  },
  {
   "property": "C21",
   "status": "proved",
   "theorems": [
    "Fio.Pattern.C21_fill",
    "Fio.Pattern.C21_check",
    "Fio.Pattern.C21_agree",
    "Fio.Pattern.C21_fill_verify",
    "Fio.Pattern.C21_verify",
    "Fio.Pattern.C21_roundtrip"
   ],
   "note": "buffers below 2^32 bytes; includes the %o format, verify_interval headers and verify_pattern_interval. Parsing of patterns is not modelled."
  },
  {
   "property": "C22",
   "status": "partial",
   "theorems": [
    "Fio.Num2str.C22_num2str_partial",
    "Fio.Num2str.C22_base1",
    "Fio.Num2str.C22_bits",
    "Fio.Num2str.C22_width_counterexample",
    "Fio.Num2str.C22_prefix_counterexample",
    "Fio.Num2str.C22_mixed_base_counterexample"
   ],
   "note": "value claim proved whenever the number fits maxlen digits with the largest prefix and the base is a power of 1000/1024; the width claim fails by one character when rounding carries (counterexample), the prefix is lost beyond that range (counterexample), and stat.c:951 mixes base 1024 with decimal prefixes (counterexample)."
  },
  {
   "property": "C23",
   "status": "proved",
   "theorems": [
    "Fio.Bloom.C23_no_false_negatives",
    "Fio.Bloom.C23_query_pure"
   ],
   "note": "for arbitrary deterministic hash functions"
  },
  {
   "property": "C24",
   "status": "proved",
   "theorems": [
    "Fio.RbTree.C24",
    "Fio.RbTree.C24_insert",
    "Fio.RbTree.C24_next"
   ],
   "note": "pointer level: every assignment of lib/rbtree.c is a heap update. Parent pointer and colour bit of rb_parent_color are separate fields; the descent is the callers' comparison loop."
  },
  {
   "property": "C25",
   "status": "proved",
   "theorems": [
    "Fio.IoGen.C25",
    "Fio.IoGen.C25_issued",
    "Fio.IoGen.C25_trimwrite_inside",
    "Fio.IoGen.C25_trimwrite",
    "Fio.IoGen.C25_region",
    "Fio.IoGen.C25_region_random",
    "Fio.IoGen.C25_uniform",
    "Fio.IoGen.C25_uniform_top",
    "Fio.IoGen.C25_region_seq",
    "Fio.IoGen.C25_seq_progress",
    "Fio.IoGen.C25_random_progress",
    "Fio.IoGen.C25_bssplit",
    "Fio.IoGen.C25_draw_ends",
    "Fio.IoGen.C25_region_counterexample",
    "Fio.IoGen.C25_region_zipf_counterexample",
    "Fio.IoGen.C25_last_block_wraps",
    "Fio.IoGen.C25_holed_counterexample",
    "Fio.IoGen.C25_bssplit_hang",
    "Fio.IoGen.C25_bssplit_percent_counterexample"
   ],
   "note": "Proved for any state of the file and any draws (sizes below 2^62), zonemode none and strided; zonemode=zbd is C36. The writes of randtrimwrite repeat the last trim (C25_trimwrite). The stronger claim that the I/O also ends inside the region offset..offset+size holds for block size ranges (C25_region), for random I/O below last_block (C25_region_random) and for sequential I/O if size is a multiple of bs (C25_region_seq), and is false otherwise (C25_region_counterexample). C25_bssplit_hang: get_next_buflen does not terminate for the split 4k:8k/100 near the end of the region."
  },
  {
   "property": "C26",
   "status": "partial",
   "theorems": [
    "Fio.VState.C26_safe",
    "Fio.VState.C26_complete",
    "Fio.VState.Race.C26_quiet_partial",
    "Fio.VState.Race.C26_other_order",
    "Fio.VState.Race.C26_race_counterexample",
    "Fio.VState.Race.C26_fail_window_counterexample",
    "Fio.VState.Race.C26_sync_failure_counterexample"
   ],
   "note": "which writes are verified is proved for every saved state and every iodepth of the verifier. That the saved state is right is proved only for a job that stands still while it is saved; it is false for a running job (get_all_io_list reads the slots before inflight_issued, and a failing write is briefly in neither list) and after a synchronously reported error, which is never recorded. verify_policy=fsynced only changes the limit."
  },
  {
   "property": "C27",
   "status": "proved",
   "theorems": [
    "Fio.VState.C27_roundtrip",
    "Fio.VState.C27_version",
    "Fio.VState.C27_body",
    "Fio.VState.C27_crc",
    "Fio.VState.C27_truncated",
    "Fio.VState.C27_server"
   ],
   "note": "state structure and file byte by byte (64-bit little-endian layout); also truncation and checksum damage."
  },
  {
   "property": "C28",
   "status": "partial",
   "theorems": [
    "Fio.Zbd.C28",
    "Fio.Zbd.C28_defined",
    "Fio.Zbd.C28_get",
    "Fio.Zbd.C28_sum",
    "Fio.Zbd.C28_job",
    "Fio.Zbd.C28_job_counterexample",
    "Fio.Zbd.C28_job_wraps"
   ],
   "note": "The device part (count, no duplicates, limit, array bounds) is proved for every sequence of steps by any jobs. The per-job part is false of the code: zbd_write_zone_put lowers the counter of the releasing job instead of the obtaining one (two counterexamples); it is proved for runs where every zone is released by the job that obtained it."
  },
  {
   "property": "C29",
   "status": "partial",
   "theorems": [
    "Fio.Steady.C29_slope_sums",
    "Fio.Steady.C29_deviation_sums",
    "Fio.Steady.C29_constants",
    "Fio.Steady.C29_constants_overflow",
    "Fio.Steady.C29_least_squares"
   ],
   "note": "the running sums are exactly the window sums for every window and sequence; the constants sum_x, sum_x_sq are right up to 1024 samples and sum_x_sq is signed overflow from 1025 on (C29_constants_overflow). Over exact arithmetic the slope formula is the least-squares slope."
  },
  {
   "property": "C30",
   "status": "proved",
   "theorems": [
    "Fio.Flow.C30_cleanup",
    "Fio.Flow.C30_proportion",
    "Fio.Flow.C30_progress"
   ],
   "note": "all interleavings at the granularity of shared memory accesses; counters do not wrap; double division is any monotone rounding with relative error 2^-53; smalloc succeeds."
  },
  {
   "property": "C31",
   "status": "proved",
   "theorems": [
    "Fio.Filelock.C31_filelock"
   ],
   "note": "names are their hashes; unlock is called only by the holder; semaphores are modelled as atomic up/down with waiting."
  },
  {
   "property": "C32",
   "status": "proved",
   "theorems": [
    "Fio.ListSort.C32_flist_sort",
    "Fio.ListSort.C32_equal_elements_keep_order"
   ],
   "note": "node chains are modelled as lists; the restoration of the prev links is not modelled."
  },
  {
   "property": "C33",
   "status": "partial",
   "theorems": [
    "Fio.Verify.C33_roundtrip",
    "Fio.Verify.C33_single_bit",
    "Fio.Verify.C33_masked",
    "Fio.Verify.C33_pattern",
    "Fio.Verify.C33_offset",
    "Fio.Verify.C33_offset_cases"
   ],
   "note": "round trip proved when the moved header stays disjoint inside the interval; false for other verify_offset values the options accept (C33_offset, C33_offset_cases: undefined behaviour). Detection proved with verify_fatal, in the last interval and in headers; false otherwise, verify_io_u forgets the error (C33_masked)."
  },
  {
   "property": "C34",
   "status": "partial",
   "theorems": [
    "Fio.IoLog.C34_partial",
    "Fio.IoLog.C18_ops",
    "Fio.IoLog.C34_unlog_counterexample",
    "Fio.IoLog.C34_inflight_counterexample"
   ],
   "note": "False of the code: two use-after-free histories with trim_percentage are proved; the claim is proved for all histories in which no write fails while its record waits for trimming and no record in flight is trimmed."
  },
  {
   "property": "C35",
   "status": "partial",
   "theorems": [
    "Fio.Zbd.C35_partial",
    "Fio.Zbd.C35_counterexample",
    "Fio.Zbd.C35_counterexample_jobs"
   ],
   "note": "False of the code: zbd_finish_zone moves the write pointer without counting, and jobs without zone_reset_threshold do not count; in both cases the count wraps below zero after a reset. Proved for runs without finish, error recovery, backward moves and non-accounting jobs."
  },
  {
   "property": "C36",
   "status": "partial",
   "theorems": [
    "Fio.Zbd.C36_zone",
    "Fio.Zbd.C36_find",
    "Fio.Zbd.C36_find_complete",
    "Fio.Zbd.C36_write",
    "Fio.Zbd.C36_write_defined",
    "Fio.Zbd.C36_read",
    "Fio.Zbd.C36_conv",
    "Fio.Zbd.C36_trim_counterexample",
    "Fio.Zbd.C36_conv_counterexample"
   ],
   "note": "Reads and writes of sequential zones are proved; for conventional zones writes up to one zone long. False of the code: a random trim may pick a conventional zone and trip an assertion; a write to a conventional zone may be accepted with length 0 if two blocks do not fit in a zone. The zone that zbd_convert_to_write_zone picks is arbitrary."
  },
  {
   "property": "C37",
   "status": "partial",
   "theorems": [
    "Fio.Net.C37",
    "Fio.Net.C37_send",
    "Fio.Net.C37_safe",
    "Fio.Net.C37_vec_partial",
    "Fio.Net.C37_ext_single",
    "Fio.Net.C37_flip",
    "Fio.Net.C37_flip_empty",
    "Fio.Net.C37_burst",
    "Fio.Net.C37_ext_counterexample",
    "Fio.Net.C37_vec_empty_counterexample",
    "Fio.Net.C37_text_counterexample",
    "Fio.Net.C37_nowait_counterexample"
   ],
   "note": "Proved for fio_net_send_cmd, with every splitting by the socket, and for one-fragment commands of fio_send_cmd_ext_pdu; for more fragments only if no write ends inside the 24 bytes of a header, since the code is wrong otherwise (C37_ext_counterexample). Also false of the code: an empty entry inside a chain (C37_vec_empty_counterexample), the unchecked text length of the peer writes outside of the buffer (C37_text_counterexample, hypothesis TextOk), and a partly arrived command is lost when not waiting (C37_nowait_counterexample). A payload checksum of an empty payload is not looked at (harmless, C37_flip_empty)."
  },
  {
   "property": "C38",
   "status": "partial",
   "theorems": [
    "Fio.Overlap.C38_offload",
    "Fio.Overlap.C38_no_abort",
    "Fio.Overlap.C38_progress",
    "Fio.Overlap.C38_inline",
    "Fio.Overlap.C38_inline_progress",
    "Fio.Overlap.C38_ramp_counterexample",
    "Fio.Overlap.C38_busy_counterexample",
    "Fio.Overlap.C38_main_counterexample"
   ],
   "note": "Proved without offload (verify_async not modelled). In offload mode false of the code in three cases: check_overlap skips jobs in their ramp time, because TD_RAMP is before TD_SETTING_UP in the enum; FIO_Q_BUSY makes the worker release a mutex it does not hold; so does the main thread in fio_io_sync and do_verify. Proved for all other runs."
  },
  {
   "property": "C39",
   "status": "proved",
   "theorems": [
    "Fio.Workq.C39_once",
    "Fio.Workq.C39_flush",
    "Fio.Workq.C39_exit",
    "Fio.Workq.C39_progress",
    "Fio.Workq.C39_bound",
    "Fio.Workq.C39_completes",
    "Fio.Workq.C39_safe",
    "Fio.Workq.C39_pick",
    "Fio.Workq.C39_idle"
   ],
   "note": "All interleavings of any number of workers and the caller, step by step, with spurious wakeups and with failing starts; sequentially consistent memory. Calls are serialized by the caller as workqueue.c demands; callbacks come to an end."
  },
  {
   "property": "C40",
   "status": "proved",
   "theorems": [
    "Fio.Clock.C40_calibrates",
    "Fio.Clock.C40_duration",
    "Fio.Clock.C40_monotone",
    "Fio.Clock.C40_zero",
    "Fio.Clock.C40_rate"
   ],
   "note": "For every rate from 1 to 9*10^11 cycles per millisecond and readings up to 2^62 ns (146 years) apart, with wraps of the counter. The choice of the rate from the samples uses double and is not modelled: any rate is an input."
  },
  {
   "property": "C41",
   "status": "partial",
   "theorems": [
    "Fio.Clock.C41_ntime",
    "Fio.Clock.C41_utime",
    "Fio.Clock.C41_utime_back",
    "Fio.Clock.C41_utime_mono",
    "Fio.Clock.C41_reltime",
    "Fio.Clock.C41_mtime",
    "Fio.Clock.C41_add",
    "Fio.Clock.C41_sleep",
    "Fio.Clock.C41_sleep_ends",
    "Fio.Clock.C41_timer",
    "Fio.Clock.C41_utime_counterexample",
    "Fio.Clock.C41_sleep_interrupted_counterexample"
   ],
   "note": "False of the code in two places: utime_since rounds up when the nanoseconds go down, so it can report more than has passed (C41_utime says exactly when; everything else rounds down); usec_sleep does not count the time slept in a round that a signal ends. The rest is proved for instants up to 2^33 seconds apart."
  },
  {
   "property": "C42",
   "status": "partial",
   "theorems": [
    "Fio.Ramp.C42_once",
    "Fio.Ramp.C42_final",
    "Fio.Ramp.C42_check_time",
    "Fio.Ramp.C42_check_size",
    "Fio.Ramp.C42_check_group",
    "Fio.Ramp.C42_time",
    "Fio.Ramp.C42_late_counterexample",
    "Fio.Ramp.C42_group_counterexample"
   ],
   "note": "False of the code for a job that starts after the helper thread has looked at the clock (its epoch is still 0) and for a job without ramp period in a group with ramp_size. Proved otherwise: jobs of a group agree on ramp_size and group_reporting, and for C42_time no look before the start. Offload workers are not modelled."
  },
  {
   "property": "C43",
   "status": "partial",
   "theorems": [
    "Fio.Parse.C43_data",
    "Fio.Parse.C43_time",
    "Fio.Parse.C43_percent",
    "Fio.Parse.C43_hex",
    "Fio.Parse.C43_reject",
    "Fio.Parse.C43_too_big",
    "Fio.Parse.C43_ki_counterexample",
    "Fio.Parse.C43_overflow_counterexample",
    "Fio.Parse.C43_blank_counterexample",
    "Fio.Parse.C43_sec_counterexample",
    "Fio.Parse.C43_hex_counterexample",
    "Fio.Parse.C43_range_counterexample"
   ],
   "note": "False of the code for the documented suffixes ki, mi, gi, ti, pi and sec, for products of 2^63 and more, for a number after a blank, for units of hexadecimal numbers and for negative numbers that do not fit. Proved for everything else; strings starting with '(' (arithmetic expressions) are not modelled."
  },
  {
   "property": "C44",
   "status": "partial",
   "theorems": [
    "Fio.Parse.C44_list",
    "Fio.Parse.C44_pair",
    "Fio.Parse.C44_time",
    "Fio.Parse.C44_range",
    "Fio.Parse.C44_limits",
    "Fio.Parse.C44_time_range_counterexample",
    "Fio.Parse.C44_int_counterexample",
    "Fio.Parse.C44_error_counterexample"
   ],
   "note": "False of the code for ranges of times written with - or :, for values of int options above 32 bits, and errors after a good value are ignored. Proved for lists of documented numbers within the limits of the option; callbacks, lists of allowed values and pow2 are not modelled."
  },
  {
   "property": "C45",
   "status": "partial",
   "theorems": [
    "Fio.Json.C45_total",
    "Fio.Json.C45_roundtrip",
    "Fio.Json.C45_string",
    "Fio.Json.C45_control_counterexample",
    "Fio.Json.C45_name_counterexample",
    "Fio.Json.C45_backslash_counterexample",
    "Fio.Json.C45_nan_counterexample",
    "Fio.Json.C45_inf_counterexample"
   ],
   "note": "False of the code for strings with control characters, for names with a quote, a backslash or a control character, and for NaN and infinite doubles. Proved for all other trees; doubles are represented by what %f shows of them."
  },
  {
   "property": "C46",
   "status": "proved",
   "theorems": [
    "Fio.Json.C46_contents",
    "Fio.Json.C46_grow",
    "Fio.Json.C46_nul_counterexample"
   ],
   "note": "Allocation succeeds, size_t does not overflow. The counterexample shows that the buffer need not end with a NUL, although log.c:26 passes it to %s."
  },
  {
   "property": "C47",
   "status": "partial",
   "theorems": [
    "Fio.Hash.C47_md5",
    "Fio.Hash.md5_abc",
    "Fio.Hash.C47_sha1",
    "Fio.Hash.sha1_abc",
    "Fio.Hash.C47_sha512",
    "Fio.Hash.sha512_abc",
    "Fio.Hash.C47_sha512_len_counterexample",
    "Fio.Hash.C47_sha3",
    "Fio.Hash.sha3_abc",
    "Fio.Hash.C47_sha256_partial",
    "Fio.Hash.sha256_abc",
    "Fio.Hash.C47_sha256_counterexample"
   ],
   "note": "md5, sha1 and sha3 in full (up to the length limit of the standard; sha3: pieces below 4 GiB). sha512 if no single piece has 2^29 bytes or more; for one such piece the bit count is wrong (counterexample). sha256: the compression is SHA-256's, but the length is appended little-endian and only the low byte of each word is kept, so the result is not SHA-256 (counterexample); C47_sha256_partial says exactly what it is."
  },
  {
   "property": "C48",
   "status": "partial",
   "theorems": [
    "Fio.IoU.units_conserved_partial",
    "Fio.IoU.units_back",
    "Fio.IoU.one_place",
    "Fio.IoU.get_exclusive",
    "Fio.IoU.sync_leak_counterexample"
   ],
   "note": "False of the code in one place: fio_io_sync does not put back a unit whose sync the engine completes with an error (counterexample). Everything else is proved: no assertion fails, every unit is in exactly one place, at most one unit per such error is lost. io_submit_mode=offload, zoned devices and experimental_verify are not modelled."
  },
  {
   "property": "C49",
   "status": "partial",
   "theorems": [
    "Fio.IoU.in_flight_count",
    "Fio.IoU.quiesce_ends",
    "Fio.IoU.quiesce_means",
    "Fio.IoU.drains",
    "Fio.IoU.prompt_replicate",
    "Fio.IoU.quiesce_hangs",
    "Fio.IoU.quiesce_hang_counterexample"
   ],
   "note": "False of the code when all units came back before the last ones were counted as in flight: io_u_quiesce then never returns (counterexample reached by do_io). Proved in all other cases."
  },
  {
   "property": "C50",
   "status": "partial",
   "theorems": [
    "Fio.IoU.pieces_tile",
    "Fio.IoU.short_continues",
    "Fio.IoU.short_continues_sync",
    "Fio.IoU.ring_first",
    "Fio.IoU.bytes_counted",
    "Fio.IoU.short_bytes_counterexample",
    "Fio.IoU.eof_bytes_counterexample",
    "Fio.IoU.zero_bytes_counterexample",
    "Fio.IoU.short_at_end_counterexample",
    "Fio.IoU.marks_lost_counterexample"
   ],
   "note": "Where a transfer goes on is proved; that all bytes are counted, that a short transfer is always finished and that a unit issued again keeps its marks is false of the code (counterexamples)."
  },
  {
   "property": "C51",
   "status": "partial",
   "theorems": [
    "Fio.Fp.wire_is_ieee",
    "Fio.Fp.wire_read",
    "Fio.Fp.round_trip",
    "Fio.Fp.infinity_hangs",
    "Fio.Fp.nan_undefined",
    "Fio.Fp.subnormal_wrong",
    "Fio.Fp.smallest_lost",
    "Fio.Fp.all_arrive_counterexample"
   ],
   "note": "Proved for zero and all normal doubles. False of the code for infinities (the sender never leaves its loop), not-a-number (undefined conversion) and subnormals below 2^-1023 (sent as a huge negative number)."
  },
  {
   "property": "C52",
   "status": "partial",
   "theorems": [
    "Fio.Buf.buffers_good",
    "Fio.Buf.buffers_aligned",
    "Fio.Buf.first_aligned",
    "Fio.Buf.shm_counterexample",
    "Fio.Buf.huge_counterexample",
    "Fio.Buf.log_counterexample",
    "Fio.Buf.align_counterexample"
   ],
   "note": "Proved when all sizes fit the C types (32 bits for shared memory and huge pages). False of the code beyond: iomem=shm and huge pages cut the size to 32 bits, a replayed log with trims, writes and num_range > 1 gets 16 bytes per range; iomem_align above the page size is not an alignment (counterexamples)."
  },
  {
   "property": "C53",
   "status": "proved",
   "theorems": [
    "Fio.Buf.memalign_ok",
    "Fio.Buf.memfree_original"
   ],
   "note": ""
  },
  {
   "property": "C54",
   "status": "partial",
   "theorems": [
    "Fio.ZDist.split_sums",
    "Fio.ZDist.split_given",
    "Fio.ZDist.split_given_abs",
    "Fio.ZDist.split_accepts",
    "Fio.ZDist.split_missing",
    "Fio.ZDist.table_ok",
    "Fio.ZDist.zoned_in",
    "Fio.ZDist.zones_disjoint",
    "Fio.ZDist.zoned_abs_in",
    "Fio.ZDist.sequence_ok",
    "Fio.ZDist.single_zone_counterexample",
    "Fio.ZDist.rest_empty_counterexample",
    "Fio.ZDist.percent_wraps_counterexample",
    "Fio.ZDist.lfsr_counterexample",
    "Fio.ZDist.special_end_counterexample"
   ],
   "note": "Proved for zones that have at least one block, percentages up to 100 and the Tausworthe generators. False of the code for zones without blocks (the I/O goes to the block behind them), for a single zone without size (never gets any), for percentages above 255 (wrap), for the LFSR (ignores the zone) and for an absolute zone that ends at block 2^32-1."
  },
  {
   "property": "C55",
   "status": "partial",
   "theorems": [
    "Fio.Rate.not_ahead",
    "Fio.Rate.no_needless_wait",
    "Fio.Rate.run_inv",
    "Fio.Rate.run_total",
    "Fio.Rate.not_ahead_split",
    "Fio.Rate.min_rate",
    "Fio.Rate.min_iops",
    "Fio.Rate.think_ok",
    "Fio.Rate.signal_counterexample",
    "Fio.Rate.timeout_counterexample",
    "Fio.Rate.trimwrite_counterexample",
    "Fio.Rate.split_counterexample",
    "Fio.Rate.poisson_counterexample",
    "Fio.Rate.overflow_counterexample",
    "Fio.Rate.min_both_counterexample",
    "Fio.Rate.think_counterexample"
   ],
   "note": "Proved for I/Os whose direction is chosen by rate_ddir, limits up to 18 TB/s, jobs other than trimwrite, and sleeps that no signal cuts short. False of the code for the rest: signals, the very end of the run time, trimwrite jobs, rate_iops with bssplit above what whole microseconds can say, a Poisson process in a direction without limit (division by zero)."
  },
  {
   "property": "C56",
   "status": "partial",
   "theorems": [
    "Fio.Log.in_order",
    "Fio.Log.no_failure",
    "Fio.Log.fits_default",
    "Fio.Log.fits_batch",
    "Fio.Log.all_complete",
    "Fio.Log.clean_complete",
    "Fio.Log.short_complete",
    "Fio.Log.lost_counterexample",
    "Fio.Log.batch_counterexample",
    "Fio.Log.deep_counterexample",
    "Fio.Log.nomem_counterexample"
   ],
   "note": "Order, and that nothing is missing in between, hold always. That nothing fails holds if what one wait reaps and what is in flight fit in the pending buffer (iodepth up to 2047 with the default batch of 1, up to 512 with any batch); that nothing is lost at the end for jobs whose I/Os complete at once or are offloaded, and for logs that fit in the first buffer. False of the code beyond: see the counterexamples."
  },
  {
   "property": "C57",
   "status": "proved",
   "theorems": [
    "Fio.LogAvg.every_sample",
    "Fio.LogAvg.windows",
    "Fio.LogAvg.slack_counterexample"
   ],
   "note": "For means in exact arithmetic. Bandwidth and IOPS logs may have two entries in a window, because one may come a millisecond early without starting a new window (slack_counterexample)."
  },
  {
   "property": "C58",
   "status": "partial",
   "theorems": [
    "Fio.LatTarget.in_range",
    "Fio.LatTarget.reacts",
    "Fio.LatTarget.no_deeper",
    "Fio.LatTarget.finds",
    "Fio.LatTarget.gives_up",
    "Fio.LatTarget.last_but_one_counterexample",
    "Fio.LatTarget.give_up_counterexample",
    "Fio.LatTarget.mixed_counterexample"
   ],
   "note": "Bounds and reaction hold for all windows; the search ends at the right depth within 3 * iodepth + 1 windows unless that depth is iodepth - 1, where it never ends; giving up works only for latency_percentile=100; a miss in the final run mixes the statistics. The last three are proved as counterexamples, so the full claim is false of the code."
  },
  {
   "property": "C59",
   "status": "partial",
   "theorems": [
    "Fio.LatTarget.once_single",
    "Fio.LatTarget.once_fast",
    "Fio.LatTarget.lost_counterexample"
   ],
   "note": "Holds for batches of one and if no I/O misses the latency target; false of the code otherwise (lost_counterexample)."
  },
  {
   "property": "C60",
   "status": "partial",
   "theorems": [
    "Fio.Sem.counts",
    "Fio.Sem.exclusive",
    "Fio.Sem.exclusive_many",
    "Fio.Sem.no_lost_wakeup",
    "Fio.Sem.lock_progress",
    "Fio.Sem.no_needless_wait",
    "Fio.Sem.timeout_takes_nothing",
    "Fio.Sem.lost_counterexample"
   ],
   "note": "Counting, exclusion, no needless wait and timeouts for all histories. That no wake-up is lost holds for locks, handshakes and queues with one reader, which are the uses in fio (Simple: no up while a token is there and several threads wait), and is false of the code without that restriction (lost_counterexample)."
  },
  {
   "property": "C61",
   "status": "partial",
   "theorems": [
    "Fio.Rusage.no_deadlock",
    "Fio.Rusage.answers",
    "Fio.Rusage.fresh",
    "Fio.Rusage.one_token",
    "Fio.Rusage.tso_counterexample"
   ],
   "note": "Proved for sequentially consistent memory. False with the store buffers of x86 (tso_counterexample): there is no barrier between the store and the load on either side."
  },
  {
   "property": "C62",
   "status": "proved",
   "theorems": [
    "Fio.Xx.one_shot",
    "Fio.Xx.in_parts",
    "Fio.Xx.detects"
   ],
   "note": "For data shorter than 2 GiB (the lengths are ints)."
  },
  {
   "property": "C63",
   "status": "partial",
   "theorems": [
    "Fio.Files.C63_in_flight_open_partial",
    "Fio.Files.C63_closes_partial",
    "Fio.Files.C63_references_partial",
    "Fio.Files.C63_count_partial",
    "Fio.Files.C63_goes_on_partial",
    "Fio.Files.C63_no_abort_partial",
    "Fio.Files.C63_limit_partial",
    "Fio.Files.C63_later_counterexample",
    "Fio.Files.C63_limit_counterexample",
    "Fio.Files.C63_close_twice_counterexample",
    "Fio.Files.C63_close_open_counterexample"
   ],
   "note": "Proved if no step of td_io_open_file fails after the engine has opened the file and a replayed log does not close files that are not open (the limit: without verification and replay); false otherwise (counterexamples)."
  },
  {
   "property": "C64",
   "status": "partial",
   "theorems": [
    "Fio.Files.C64_all_served_partial",
    "Fio.Files.C64_ends_partial",
    "Fio.Files.C64_round_robin_partial",
    "Fio.Files.C64_one_at_a_time_partial",
    "Fio.Files.C64_sequential_order_partial",
    "Fio.Files.C64_moves_on_partial",
    "Fio.Files.C64_sequential_counterexample",
    "Fio.Files.C64_open_fails_counterexample",
    "Fio.Files.C64_closing_counterexample",
    "Fio.Files.C64_verify_counterexample",
    "Fio.Files.C64_done_again_counterexample"
   ],
   "note": "Proved for round robin, sequential and random service without verification, if files can be opened. False with openfiles for the order of sequential service, with verify_backlog and openfiles, and for the termination of the random choice (counterexamples)."
  },
  {
   "property": "C65",
   "status": "partial",
   "theorems": [
    "Fio.Jobs.C65_stonewall_alone_partial",
    "Fio.Jobs.C65_wait_for_partial",
    "Fio.Jobs.C65_stonewall_waits_partial",
    "Fio.Jobs.C65_stonewall_holds_partial",
    "Fio.Jobs.C65_stonewall_delay_counterexample",
    "Fio.Jobs.C65_stonewall_holds_counterexample"
   ],
   "note": "Proved without start_delay, if no job is terminated before it is created, none hangs at its start or after having been terminated (that a stonewalled job starts when nothing else runs, and wait_for: with delays and terminations too). False with start_delay (counterexamples)."
  },
  {
   "property": "C66",
   "status": "partial",
   "theorems": [
    "Fio.Jobs.C66_all_done_partial",
    "Fio.Jobs.C66_events_bounded_partial",
    "Fio.Jobs.C66_progress_partial",
    "Fio.Jobs.C66_drain_progress_partial",
    "Fio.Jobs.C66_main_goes_partial",
    "Fio.Jobs.C66_terminated_lost_counterexample",
    "Fio.Jobs.C66_terminated_wrap_counterexample",
    "Fio.Jobs.C66_reaped_twice_counterexample",
    "Fio.Jobs.C66_timeout_wrap_counterexample",
    "Fio.Jobs.C66_wait_for_cycle_counterexample"
   ],
   "note": "Proved if no job is terminated before it is created, none hangs at its start or after having been terminated, and (progress) without start_delay and if jobs wait for jobs before them. False otherwise (counterexamples)."
  },
  {
   "property": "C67",
   "status": "partial",
   "theorems": [
    "Fio.Jobs.C67_cpuio_only_partial",
    "Fio.Jobs.C67_cpuio_ends_partial",
    "Fio.Jobs.C67_cpuio_first_counterexample",
    "Fio.Jobs.C67_cpuio_process_counterexample"
   ],
   "note": "Proved for threads if no job with cpuio ends first. False for processes, and if a job with cpuio ends before the others (counterexamples)."
  },
  {
   "property": "C68",
   "status": "partial",
   "theorems": [
    "Fio.Setup.C68_regions_partial",
    "Fio.Setup.C68_inside_partial",
    "Fio.Setup.C68_sum_partial",
    "Fio.Setup.C68_size_accepted_partial",
    "Fio.Setup.C68_existing_partial",
    "Fio.Setup.C68_setting_partial",
    "Fio.Setup.C68_offset_counterexample",
    "Fio.Setup.C68_range_counterexample",
    "Fio.Setup.C68_fill_counterexample",
    "Fio.Setup.C68_unknown_counterexample",
    "Fio.Setup.C68_align_counterexample",
    "Fio.Setup.C68_blocks_counterexample",
    "Fio.Setup.C68_setting_counterexample"
   ],
   "note": "Proved for sizes below 36 PB and offsets inside files of given size (Tame). False otherwise, see the counterexamples."
  },
  {
   "property": "C69",
   "status": "partial",
   "theorems": [
    "Fio.Setup.C69_clones_partial",
    "Fio.Setup.C69_clones_percent_partial",
    "Fio.Setup.C69_align_counterexample"
   ],
   "note": "Proved in bytes, and in percent without offset_align. False with offset_align (counterexample)."
  },
  {
   "property": "C70",
   "status": "proved",
   "theorems": [
    "Fio.Setup.C70_layout",
    "Fio.Setup.C70_ends",
    "Fio.Setup.C70_succeeds"
   ],
   "note": ""
  },
  {
   "property": "C71",
   "status": "partial",
   "theorems": [
    "Fio.Amount.C71_not_more_partial",
    "Fio.Amount.C71_not_less_partial",
    "Fio.Amount.C71_io_size_partial",
    "Fio.Amount.C71_ends_partial",
    "Fio.Amount.C71_goes_on",
    "Fio.Amount.C71_io_size_loops_counterexample",
    "Fio.Amount.C71_number_ios_counterexample"
   ],
   "note": "Proved but for io_size larger than size (one loop: less than a block may be missing; more loops: false, counterexample), and trimwrite (number_ios: false, counterexample)."
  },
  {
   "property": "C72",
   "status": "proved",
   "theorems": [
    "Fio.Nvme.C72_written",
    "Fio.Nvme.C72_checked",
    "Fio.Nvme.C72_read_prep",
    "Fio.Nvme.C72_roundtrip",
    "Fio.Nvme.C72_damage",
    "Fio.Nvme.C72_bit",
    "Fio.Nvme.C72_tags",
    "Fio.Nvme.C72_misplaced",
    "Fio.Nvme.C72_geometry",
    "Fio.Nvme.C72_escape_counterexample",
    "Fio.Nvme.C72_guard32_counterexample"
   ],
   "note": "Complete; the exceptions in the statement (tags that disable checking) are shown to be needed, and 32 bit guards, which the program accepts without handling them, are outside (counterexample)."
  },
  {
   "property": "C73",
   "status": "partial",
   "theorems": [
    "Fio.Nvme.C73_blocks_partial",
    "Fio.Nvme.C73_trim",
    "Fio.Nvme.C73_trim_multi",
    "Fio.Nvme.C73_pi",
    "Fio.Nvme.C73_zones_partial",
    "Fio.Nvme.C73_nlb_counterexample",
    "Fio.Nvme.C73_zones_counterexample",
    "Fio.Nvme.C73_deac_counterexample"
   ],
   "note": "Proved for up to 65536 blocks (the field overflows beyond: counterexample) and for zones on formats without extended blocks (with them the wrong block is addressed: counterexample); deac together with writefua loses deac (counterexample)."
  },
  {
   "property": "C74",
   "status": "partial",
   "theorems": [
    "Fio.Replay.C74_read_back_partial",
    "Fio.Replay.C74_redirect_partial",
    "Fio.Replay.C74_replay_partial",
    "Fio.Replay.C74_replay_async_partial",
    "Fio.Replay.C74_syncfs_counterexample",
    "Fio.Replay.C74_space_counterexample",
    "Fio.Replay.C74_length_counterexample",
    "Fio.Replay.C74_size_counterexample",
    "Fio.Replay.C74_directory_counterexample",
    "Fio.Replay.C74_sync_length_counterexample",
    "Fio.Replay.C74_skip_pause_counterexample",
    "Fio.Replay.C74_redirect_close_counterexample",
    "Fio.Replay.C74_reopen_counterexample",
    "Fio.Replay.C74_short_line_counterexample"
   ],
   "note": "Proved for names without white space of at most 256 bytes, lengths below 4 GiB, the directions that can be read back, no directory option, and a replay that completes each I/O before the next or never opens a file twice; each restriction is needed (counterexamples), pauses lost with skipped entries and the job size are wrong as well (counterexamples)."
  },
  {
   "property": "C75",
   "status": "partial",
   "theorems": [
    "Fio.Replay.C75_chunked_partial",
    "Fio.Replay.C75_slow_counterexample",
    "Fio.Replay.C75_overflow_counterexample"
   ],
   "note": "The order is proved for all times; completeness only if at least one piece is fetched at each mark: a slow job ends early (counterexample)."
  },
  {
   "property": "C76",
   "status": "partial",
   "theorems": [
    "Fio.Split.C76_share_partial",
    "Fio.Split.C76_range_partial",
    "Fio.Split.C76_accepts",
    "Fio.Split.C76_over_counterexample",
    "Fio.Split.C76_over_missing_counterexample",
    "Fio.Split.C76_negative_counterexample",
    "Fio.Split.C76_under_counterexample",
    "Fio.Split.C76_unaligned_counterexample",
    "Fio.Split.C76_range_unaligned_counterexample",
    "Fio.Split.C76_end_counterexample"
   ],
   "note": "Proved (up to 84 of 2^32 or 2^64 random numbers) for percentages of at most 100 in total, sizes that are multiples of the smallest, and places with room for every size; for ranges with a 32-bit generator. The rest is false (counterexamples)."
  },
  {
   "property": "C77",
   "status": "partial",
   "theorems": [
    "Fio.Ddir.C77_sync_partial",
    "Fio.Ddir.C77_goes_on",
    "Fio.Ddir.C77_mix",
    "Fio.Ddir.C77_only",
    "Fio.Ddir.C77_draws",
    "Fio.Ddir.C77_one_direction",
    "Fio.Ddir.C77_both_counterexample",
    "Fio.Ddir.C77_backlog_counterexample",
    "Fio.Ddir.C77_verify_busy_counterexample",
    "Fio.Ddir.C77_timeout_counterexample"
   ],
   "note": "Proved without verify_backlog and trim_backlog; with them syncs are lost (counterexample); of two syncs due after the same write only one is done (counterexample). The mix is proved for jobs without a rate."
  },
  {
   "property": "C78",
   "status": "partial",
   "theorems": [
    "Fio.Dedupe.C78_repeat",
    "Fio.Dedupe.C78_working_set_partial",
    "Fio.Dedupe.C78_hundred",
    "Fio.Dedupe.C78_share",
    "Fio.Dedupe.C78_distinct",
    "Fio.Dedupe.C78_compress_all",
    "Fio.Dedupe.C78_compress_counterexample",
    "Fio.Dedupe.C78_chunk_counterexample",
    "Fio.Dedupe.C78_small_counterexample"
   ],
   "note": "Content of every buffer proved byte by byte. False: buffer_compress_percentage=100 with dedupe_percentage; a working set with a chunk size that does not divide the block size or of less than a block (counterexamples)."
  },
  {
   "property": "C79",
   "status": "partial",
   "theorems": [
    "Fio.SyncEng.C79_sync_partial",
    "Fio.SyncEng.C79_all_partial",
    "Fio.SyncEng.C79_psync",
    "Fio.SyncEng.C79_wrong_iff",
    "Fio.SyncEng.C79_parts",
    "Fio.SyncEng.C79_parts_end",
    "Fio.SyncEng.C79_trim_counterexample",
    "Fio.SyncEng.C79_error_counterexample",
    "Fio.SyncEng.C79_drop_counterexample"
   ],
   "note": "Proved for all jobs without trims, failing transfers and units prepared but dropped; psync without restriction. In those three cases the claim is false (counterexamples): the next sequential write goes to the place of the trim or of the failed or dropped unit."
  },
  {
   "property": "C80",
   "status": "partial",
   "theorems": [
    "Fio.Vsync.C80_once_partial",
    "Fio.Vsync.C80_error",
    "Fio.Vsync.C80_queue",
    "Fio.Vsync.C80_lost_counterexample",
    "Fio.Vsync.C80_quiesce_counterexample",
    "Fio.Vsync.C80_low_counterexample",
    "Fio.Vsync.C80_trim_counterexample"
   ],
   "note": "Proved, with termination, for iodepth_batch = iodepth (0 or at least the depth) without trims and kernel errors; an error reaches every unit of the vector. False for smaller batches, among them the default of 1 with a depth above 1 (units lost, endless waits), and for trims, which are executed as writes (counterexamples)."
  },
  {
   "property": "C81",
   "status": "partial",
   "theorems": [
    "Fio.Libaio.C81_kept",
    "Fio.Libaio.C81_none_dropped_partial",
    "Fio.Libaio.C81_commit",
    "Fio.Libaio.C81_commit_ends",
    "Fio.Libaio.C81_min",
    "Fio.Libaio.C81_queue",
    "Fio.Libaio.C81_result",
    "Fio.Libaio.C81_wait_unreachable",
    "Fio.Libaio.C81_dropped_counterexample",
    "Fio.Libaio.C81_stall_counterexample",
    "Fio.Libaio.C81_busy_counterexample"
   ],
   "note": "Ring, order, bounds and conservation of units proved for all calls and answers. False: events collected before io_getevents fails are dropped; EAGAIN with nothing in flight leaves the units in the ring and the job waits for their events; actual_min reaches 0 too early (counterexamples)."
  },
  {
   "property": "C82",
   "status": "partial",
   "theorems": [
    "Fio.Cmdprio.C82_value",
    "Fio.Cmdprio.C82_parse",
    "Fio.Cmdprio.C82_accept",
    "Fio.Cmdprio.C82_share",
    "Fio.Cmdprio.C82_total",
    "Fio.Cmdprio.C82_index",
    "Fio.Cmdprio.C82_percentage",
    "Fio.Cmdprio.C82_sync_counterexample"
   ],
   "note": "Proved for reads and writes. False for syncs (both engines) and trims (io_uring): the engines look up a third or fourth direction in tables of two (counterexample)."
  },
  {
   "property": "C83",
   "status": "partial",
   "theorems": [
    "Fio.Uring.C83_kept",
    "Fio.Uring.C83_no_crash",
    "Fio.Uring.C83_room",
    "Fio.Uring.C83_queue",
    "Fio.Uring.C83_get",
    "Fio.Uring.C83_get_ends",
    "Fio.Uring.C83_not_blocked",
    "Fio.Uring.C83_commit",
    "Fio.Uring.C83_roundup",
    "Fio.Uring.C83_setup",
    "Fio.Uring.C83_lost_counterexample",
    "Fio.Uring.C83_error_counterexample",
    "Fio.Uring.C83_zero_counterexample"
   ],
   "note": "Proved, with completions thrown away as a further place. False (counterexamples) that nothing is thrown away: commit consumes completions on EAGAIN and EINTR without looking at them, and an error in getevents drops those consumed before. A call with min = 0 does not return while there is nothing."
  },
  {
   "property": "C84",
   "status": "partial",
   "theorems": [
    "Fio.Sqe.C84_rw",
    "Fio.Sqe.C84_trim",
    "Fio.Sqe.C84_file",
    "Fio.Sqe.C84_sync",
    "Fio.Sqe.C84_sync_clean",
    "Fio.Sqe.C84_others",
    "Fio.Sqe.C84_async",
    "Fio.Sqe.C84_event",
    "Fio.Sqe.C84_trim_event",
    "Fio.Sqe.C84_cmd_event",
    "Fio.Sqe.C84_datasync_counterexample",
    "Fio.Sqe.C84_flags_counterexample",
    "Fio.Sqe.C84_range_counterexample",
    "Fio.Sqe.C84_length_counterexample",
    "Fio.Sqe.C84_trim_counterexample"
   ],
   "note": "Proved for reads, writes and trims. For syncs the exact condition on what was left in the entry is proved; it can fail (counterexamples: sync after fdatasync, after flags or registered buffers, range sync after a write, range of 4 GiB). A trim refused is reported without an error."
  },
  {
   "property": "C85",
   "status": "partial",
   "theorems": [
    "Fio.Mmap.C85_right",
    "Fio.Mmap.C85_sync",
    "Fio.Mmap.C85_parts",
    "Fio.Mmap.C85_failed_counterexample",
    "Fio.Mmap.C85_dangling_counterexample",
    "Fio.Mmap.C85_sync_counterexample",
    "Fio.Mmap.C85_leak_counterexample"
   ],
   "note": "Proved up to the first failed unit. After a failed one the next may crash (counterexamples), a sync covers only the part mapped last (counterexample; proved if the whole file is mapped), and closing leaks the mapping (counterexample)."
  },
  {
   "property": "C86",
   "status": "partial",
   "theorems": [
    "Fio.VAsync.C86_once",
    "Fio.VAsync.C86_after_exit",
    "Fio.VAsync.C86_exit_empty",
    "Fio.VAsync.C86_wakeup",
    "Fio.VAsync.C86_drained",
    "Fio.VAsync.C86_no_false_error",
    "Fio.VAsync.C86_counted",
    "Fio.VAsync.C86_exit_bounded",
    "Fio.VAsync.C86_exit_progress",
    "Fio.VAsync.C86_fifo",
    "Fio.VAsync.C86_error_last_partial",
    "Fio.VAsync.C86_error_single_partial",
    "Fio.VAsync.C86_start_atomic",
    "Fio.VAsync.C86_error_lost_counterexample",
    "Fio.VAsync.C86_unverified_counterexample",
    "Fio.VAsync.C86_stuck_counterexample",
    "Fio.VAsync.C86_start_race_counterexample"
   ],
   "note": "False as stated: a fatal error is forgotten if the thread took a good unit after it in the same batch, units handed over just before the exit are never verified, and the counter of threads is incremented without the lock (counterexamples). Proved: each unit in one place, verified at most once; no lost wake-up; exit takes finitely many steps and cannot hang; all verified if the list is empty when exit is called; errors exact with single units and exact counts if not fatal; order kept with one thread."
  },
  {
   "property": "C87",
   "status": "partial",
   "theorems": [
    "Fio.Dp.C87_option",
    "Fio.Dp.C87_streams",
    "Fio.Dp.C87_device",
    "Fio.Dp.C87_indexed",
    "Fio.Dp.C87_started",
    "Fio.Dp.C87_others",
    "Fio.Dp.C87_scheme",
    "Fio.Dp.C87_random",
    "Fio.Dp.C87_rr",
    "Fio.Dp.C87_rr_device",
    "Fio.Dp.C87_scheme_file",
    "Fio.Dp.C87_empty_counterexample",
    "Fio.Dp.C87_unsteady_counterexample",
    "Fio.Dp.C87_restart_counterexample"
   ],
   "note": "Proved if the device has at least one id and answers both queries alike. A device without ids, or whose answers differ, makes the code read past the end of an array, and in a replay each opened file starts the turns of all files anew (counterexamples). The draw being in range is C12."
  },
  {
   "property": "C88",
   "status": "partial",
   "theorems": [
    "Fio.Spr.C88_ring",
    "Fio.Spr.C88_order",
    "Fio.Spr.C88_all_written",
    "Fio.Spr.C88_regions_partial",
    "Fio.Spr.C88_no_failure_partial",
    "Fio.Spr.C88_past_last_region_counterexample",
    "Fio.Spr.C88_write_too_many_counterexample",
    "Fio.Spr.C88_wrap_counterexample",
    "Fio.Spr.C88_ring_full_counterexample",
    "Fio.Spr.C88_one_region_counterexample",
    "Fio.Spr.C88_share_zero_counterexample"
   ],
   "note": "Counts and absence of failures are proved as long as no region is drawn completely and (failures) the ring is as large as a region; without these they are false (counterexamples). New blocks after the last region are read past the end of the array of shares."
  },
  {
   "property": "C89",
   "status": "partial",
   "theorems": [
    "Fio.Ini.C89_line",
    "Fio.Ini.C89_file_partial",
    "Fio.Ini.C89_buffer_partial",
    "Fio.Ini.C89_files_partial",
    "Fio.Ini.C89_files_stop",
    "Fio.Ini.C89_files_all",
    "Fio.Ini.C89_outside",
    "Fio.Ini.C89_missing",
    "Fio.Ini.C89_case",
    "Fio.Ini.C89_chosen",
    "Fio.Ini.C89_refused",
    "Fio.Ini.C89_missing_include_counterexample",
    "Fio.Ini.C89_section_in_include_counterexample",
    "Fio.Ini.C89_empty_include_counterexample",
    "Fio.Ini.C89_include_buffer_counterexample",
    "Fio.Ini.C89_include_buffer_last_counterexample",
    "Fio.Ini.C89_chosen_second_counterexample",
    "Fio.Ini.C89_names_counterexample",
    "Fio.Ini.C89_long_line_counterexample"
   ],
   "note": "Proved for files whose lines are shorter than 8191 characters, whose section names have at most 254 and whose included files exist, have options and no sections; several files if no sections are chosen. For the rest the claim is false (counterexamples). What the options mean is C43, C44 and others."
  },
  {
   "property": "C90",
   "status": "partial",
   "theorems": [
    "Fio.Sub.C90_subst_total",
    "Fio.Sub.C90_variables_partial",
    "Fio.Sub.C90_length",
    "Fio.Sub.C90_keywords_partial",
    "Fio.Sub.C90_no_math",
    "Fio.Sub.C90_math",
    "Fio.Sub.C90_no_answer",
    "Fio.Sub.C90_text_partial",
    "Fio.Sub.C90_options_partial",
    "Fio.Sub.C90_ok_partial",
    "Fio.Sub.C90_dropped",
    "Fio.Sub.C90_case",
    "Fio.Sub.C90_parse_case",
    "Fio.Sub.C90_parse_fails",
    "Fio.Sub.C90_long_value_counterexample",
    "Fio.Sub.C90_cut_counterexample",
    "Fio.Sub.C90_overflow_counterexample",
    "Fio.Sub.C90_path_counterexample",
    "Fio.Sub.C90_blank_counterexample"
   ],
   "note": "Proved for variables if the texts fit in 8192 characters, for keywords whose values are not longer than they are, and for options without a blank before the =; in each of the other cases the claim is false, with a witness.  The sort of the options (sort_options) is any permutation; the calculator is any function."
  },
  {
   "property": "C91",
   "status": "partial",
   "theorems": [
    "Fio.Sg.C91_command_partial",
    "Fio.Sg.C91_unaligned_partial",
    "Fio.Sg.C91_trims_partial",
    "Fio.Sg.C91_events_partial",
    "Fio.Sg.C91_files_block_counterexample",
    "Fio.Sg.C91_sync_partial",
    "Fio.Sg.C91_capacity_partial",
    "Fio.Sg.C91_size_partial",
    "Fio.Sg.C91_case",
    "Fio.Sg.C91_events_case",
    "Fio.Sg.C91_long_read_counterexample",
    "Fio.Sg.C91_write_same_counterexample",
    "Fio.Sg.C91_verify_counterexample",
    "Fio.Sg.C91_offset_counterexample",
    "Fio.Sg.C91_520_counterexample",
    "Fio.Sg.C91_two_files_counterexample",
    "Fio.Sg.C91_many_trims_counterexample",
    "Fio.Sg.C91_failed_commit_counterexample",
    "Fio.Sg.C91_read_error_counterexample",
    "Fio.Sg.C91_second_file_counterexample",
    "Fio.Sg.C91_sync_trims_counterexample",
    "Fio.Sg.C91_sync_error_counterexample",
    "Fio.Sg.C91_second_size_counterexample"
   ],
   "note": "Proved for block sizes that are powers of two, offsets at blocks, numbers of blocks that fit the command taken, trims of one file (at most 4095, after no failed commit), one file with enough completions and no error of a read, and the first file's size.  In each of the other cases the claim is false, with a witness."
  },
  {
   "property": "C92",
   "status": "partial",
   "theorems": [
    "Fio.Think.C92_when_partial",
    "Fio.Think.C92_never_counterexample",
    "Fio.Think.C92_pause_partial",
    "Fio.Think.C92_long_enough_partial",
    "Fio.Think.C92_every_partial",
    "Fio.Think.C92_reset_partial",
    "Fio.Think.C92_kept",
    "Fio.Think.C92_no_stop",
    "Fio.Think.C92_rate_partial",
    "Fio.Think.C92_rate_kept",
    "Fio.Think.C92_pause_case",
    "Fio.Think.C92_every_case",
    "Fio.Think.C92_twice_counterexample",
    "Fio.Think.C92_ramp_counterexample",
    "Fio.Think.C92_ramp_waiting_counterexample",
    "Fio.Think.C92_past_end_counterexample",
    "Fio.Think.C92_long_counterexample",
    "Fio.Think.C92_rate_counterexample"
   ],
   "note": "Proved for times below 2^31 microseconds, a run not past its end, products that fit in 64 bits, and counters with not more than thinktime_blocks I/Os since the last pause at a reset.  In the other cases the claim is false, with witnesses."
  },
  {
   "property": "C93",
   "status": "partial",
   "theorems": [
    "Fio.Seq.C93_untorn_partial",
    "Fio.Seq.C93_start",
    "Fio.Seq.C93_ends",
    "Fio.Seq.C93_updates",
    "Fio.Seq.C93_case",
    "Fio.Seq.C93_wrap_counterexample",
    "Fio.Seq.C93_weak_counterexample",
    "Fio.Seq.C93_zero_counterexample"
   ],
   "note": "Proved for stores that become visible in order and fewer than 2^31 updates during one try.  Where stores may overtake each other, and with 2^31 updates, a torn time is read, with witnesses."
  },
  {
   "property": "C94",
   "status": "partial",
   "theorems": [
    "Fio.Du.C94_counts_partial",
    "Fio.Du.C94_skip",
    "Fio.Du.C94_time_partial",
    "Fio.Du.C94_users_partial",
    "Fio.Du.C94_part_counterexample",
    "Fio.Du.C94_parts_partial",
    "Fio.Du.C94_known",
    "Fio.Du.C94_raid_partial",
    "Fio.Du.C94_printed_again_counterexample",
    "Fio.Du.C94_busy_counterexample",
    "Fio.Du.C94_case",
    "Fio.Du.C94_parts_case",
    "Fio.Du.C94_raid_case",
    "Fio.Du.C94_short_counterexample",
    "Fio.Du.C94_tail_counterexample",
    "Fio.Du.C94_first_counterexample",
    "Fio.Du.C94_time_counterexample",
    "Fio.Du.C94_known_part_counterexample",
    "Fio.Du.C94_part_open_counterexample",
    "Fio.Du.C94_twice_counterexample"
   ],
   "note": "Proved up to the last look with a user, for growth below 2^32 between looks and a first reading that succeeds; for files not on a part of a known disk; for parts not known before and without parts; for the first printing.  In the other cases the claim is false, with witnesses (parts with parts are not covered)."
  },
  {
   "property": "C95",
   "status": "partial",
   "theorems": [
    "Fio.TsNet.C95_arrives_partial",
    "Fio.TsNet.C95_case",
    "Fio.TsNet.C95_mixed_case",
    "Fio.TsNet.C95_block_counterexample",
    "Fio.TsNet.C95_trust_counterexample"
   ],
   "note": "Proved for servers of either byte order without block infos, little endian servers with them, doubles that C51 can send, and counts that fit an int; a big endian server with block infos leaves the array, and a client believes counts and places of a message: false, with witnesses."
  },
  {
   "property": "C96",
   "status": "partial",
   "theorems": [
    "Fio.Smalloc.C96_apart",
    "Fio.Smalloc.C96_defined",
    "Fio.Smalloc.C96_zero",
    "Fio.Smalloc.C96_free",
    "Fio.Smalloc.C96_null",
    "Fio.Smalloc.C96_finds_partial",
    "Fio.Smalloc.C96_alone",
    "Fio.Smalloc.C96_case",
    "Fio.Smalloc.C96_skips_counterexample",
    "Fio.Smalloc.C96_race_counterexample"
   ],
   "note": "Apartness, freeing, zeroing proved in full. A run of ffz(-1) plus twice the blocks asked for is always found and NULL means every pool refused; that a run of the length asked for is enough is false (the search skips behind a run too short), and with several callers NULL comes although pools have room (last_pool unprotected): witnesses."
  },
  {
   "property": "C97",
   "status": "partial",
   "theorems": [
    "Fio.Mtrim.C97_ranges",
    "Fio.Mtrim.C97_total",
    "Fio.Mtrim.C97_command",
    "Fio.Mtrim.C97_disjoint_partial",
    "Fio.Mtrim.C97_accept_partial",
    "Fio.Mtrim.C97_tail_refused",
    "Fio.Mtrim.C97_case",
    "Fio.Mtrim.C97_tail_counterexample",
    "Fio.Mtrim.C97_overlap_counterexample"
   ],
   "note": "Ranges, bounds, sum and command proved. That no byte is in two ranges holds with one block size only, and a command is accepted only when the last offset plus the length of all ranges is inside of the file: the last command of a sequential trim is refused (proved for every file, with a witness), ranges of different lengths overlap (witness)."
  },
  {
   "property": "C98",
   "status": "partial",
   "theorems": [
    "Fio.Blkmerge.C98_merge_partial",
    "Fio.Blkmerge.C98_params",
    "Fio.Blkmerge.C98_case",
    "Fio.Blkmerge.C98_params_case",
    "Fio.Blkmerge.C98_refused_counterexample",
    "Fio.Blkmerge.C98_accepted_counterexample",
    "Fio.Blkmerge.C98_memory_counterexample",
    "Fio.Blkmerge.C98_iterations_counterexample",
    "Fio.Blkmerge.C98_scale_counterexample",
    "Fio.Blkmerge.C98_seek_counterexample",
    "Fio.Blkmerge.C98_empty_counterexample",
    "Fio.Blkmerge.C98_wild_counterexample",
    "Fio.Blkmerge.C98_cut_counterexample"
   ],
   "note": "Proved, on the bytes of the files, for one iteration, files with a record to replay and cursors whose memory holds 0 as iteration. False otherwise, each with a witness: add_job refuses exactly the merges that worked (proved for all); iter and length are never initialised; several iterations write a record twice, scale a length twice and may start inside of a record; a file without records moves the next one or makes a wild read; a cut record is taken as a record."
  },
  {
   "property": "C99",
   "status": "partial",
   "theorems": [
    "Fio.Blkreplay.C99_replay",
    "Fio.Blkreplay.C99_timing_partial",
    "Fio.Blkreplay.C99_case",
    "Fio.Blkreplay.C99_skip_counterexample",
    "Fio.Blkreplay.C99_first_counterexample",
    "Fio.Blkreplay.C99_device_counterexample",
    "Fio.Blkreplay.C99_close_counterexample",
    "Fio.Blkreplay.C99_flush_counterexample",
    "Fio.Blkreplay.C99_long_counterexample"
   ],
   "note": "The list of I/Os, the order of opening, directions, block sizes, depth and refusal are proved on the bytes of the file for devices that are found. The delays add up when nothing is skipped and the first time is not 0. False otherwise, with witnesses: skipped records take their time with them, a device that is not found is replaced by the one before, a bad record closes the file twice, a trace of flushes has depth 0, a length lifted over 32 bits is dropped. Reading in chunks is not modelled."
  },
  {
   "property": "C100",
   "status": "partial",
   "theorems": [
    "Fio.Cconv.C100_roundtrip_partial",
    "Fio.Cconv.C100_case",
    "Fio.Cconv.C100_lost",
    "Fio.Cconv.C100_total",
    "Fio.Cconv.C100_selftest",
    "Fio.Cconv.C100_steady_counterexample",
    "Fio.Cconv.C100_hist_counterexample",
    "Fio.Cconv.C100_cut_counterexample",
    "Fio.Cconv.C100_zone_counterexample",
    "Fio.Cconv.C100_clear_counterexample",
    "Fio.Cconv.C100_number_counterexample",
    "Fio.Cconv.C100_string_counterexample",
    "Fio.Cconv.C100_short_counterexample",
    "Fio.Cconv.C100_limit_counterexample"
   ],
   "note": "Proved for all options but 25 numbers and 3 strings, for which it is proved that what the receiver has does not depend on the sender: 4 of the 5 steady state options are read from the uninitialised message instead of the options, log_hist_msec and log_hist_coarseness are not written, others have no place or an unused place in the message. Strings are cut to 255 bytes and cannot be taken back. The numbers of elements in a received message are not checked: witnesses. The test in the code is proved to pass for all options although they are lost. cpu masks, verify_fmt and the numbers of ignore_error are not modelled."
  },
  {
   "property": "C101",
   "status": "partial",
   "theorems": [
    "Fio.NetLog.C101_local",
    "Fio.NetLog.C101_arrives_partial",
    "Fio.NetLog.C101_same_partial",
    "Fio.NetLog.C101_cut",
    "Fio.NetLog.C101_room",
    "Fio.NetLog.C101_stored",
    "Fio.NetLog.C101_example",
    "Fio.NetLog.C101_offset_counterexample",
    "Fio.NetLog.C101_big_counterexample",
    "Fio.NetLog.C101_prio_counterexample",
    "Fio.NetLog.C101_hist_counterexample",
    "Fio.NetLog.C101_finish_counterexample",
    "Fio.NetLog.C101_name_counterexample"
   ],
   "note": "Proved: flush_log writes a line per sample with all that was asked for (and the line always fits its buffer of 256 bytes); without log_offset the client writes the same file, on hosts of either byte order up to the bytes of the priority of a big endian server, with compression if what is sent inflates to what was deflated. False with log_offset: the header has no log_offset and log_issue_time and the size is computed with sizeof(struct io_sample), so of n lines exactly the first 40n/48 (40n/56) are written (proved for all logs between little endian hosts). False for compression: the first deflate(Z_FINISH) writes behind the end of an entry that is already queued, so the end of the stream is not sent (counterexample with a codec that holds back a byte). False for histogram logs sent uncompressed (client stores beyond the message). Missing: the text of histogram logs, inflating of chunks."
  },
  {
   "property": "C102",
   "status": "partial",
   "theorems": [
    "Fio.LockFile.C102_exclusive_partial",
    "Fio.LockFile.C102_exclusive_live",
    "Fio.LockFile.C102_readwrite_partial",
    "Fio.LockFile.C102_readwrite_live",
    "Fio.LockFile.C102_jobs_counterexample",
    "Fio.LockFile.C102_none_counterexample",
    "Fio.LockFile.C102_mode_counterexample",
    "Fio.LockFile.C102_busy_counterexample",
    "Fio.LockFile.C102_slot_counterexample",
    "Fio.LockFile.C102_hang_counterexample",
    "Fio.LockFile.C102_drop_counterexample",
    "Fio.LockFile.C102_async_counterexample"
   ],
   "note": "Proved for every number of copies of one job (numjobs) and every interleaving: between td_io_prep and the end of the engine's queue the exclusion holds for both modes, who is in comes out, and who wants in gets in when nobody is in (a reader also while only readers are in); for runs without queueing again after BUSY, double preparation or putting back what was prepared. Refuted by the counterexamples: the claim for jobs that are not copies (three jobs, a close in between; a job without lockfile; different modes), for fio_io_sync and workers with a busy engine, for uninitialised file_locks of copies, for experimental_verify (waits for itself), for I/O put back by do_verify, and for I/O in flight of asynchronous engines."
  },
  {
   "property": "C103",
   "status": "partial",
   "theorems": [
    "Fio.Report.C103_room",
    "Fio.Report.C103_once",
    "Fio.Report.C103_grouped_partial",
    "Fio.Report.C103_entry",
    "Fio.Report.C103_mixed",
    "Fio.Report.C103_groups",
    "Fio.Report.C103_extremes",
    "Fio.Report.C103_extremes_example",
    "Fio.Report.C103_example",
    "Fio.Report.C103_mix_counterexample",
    "Fio.Report.C103_between_counterexample",
    "Fio.Report.C103_stats_counterexample",
    "Fio.Report.C103_runtime_counterexample",
    "Fio.Report.C103_agg_counterexample"
   ],
   "note": "Proved for all lists of jobs: nothing is written outside the entries and groups, every job with stats is counted once and in an entry of its own group, the sums of entries and groups are those of their jobs (bytes modulo 2^64), and shortest runtime, smallest and largest bandwidth of a group are those of its entries. Proved for jobs of which a whole group has group_reporting or none, and that have stats if they have not: the entries are exactly as asked for and the report is made. Refuted otherwise: a job with group_reporting behind one without it in its group is added to the entry of that one, and an entry is left without a group; so is one for a job with neither stats nor group_reporting; the report then uses runstats[-1]. A direction with runtime 0 is left out of its group, and the bandwidth wraps from 18447 TB on."
  },
  {
   "property": "C104",
   "status": "partial",
   "theorems": [
    "Fio.PrioStat.C104_counts_partial",
    "Fio.PrioStat.C104_mixed_partial",
    "Fio.PrioStat.C104_disabled",
    "Fio.PrioStat.C104_example",
    "Fio.PrioStat.C104_kinds_counterexample",
    "Fio.PrioStat.C104_percentiles_counterexample",
    "Fio.PrioStat.C104_memory_counterexample"
   ],
   "note": "Proved for all lists of jobs that agree on lat_percentiles and on having a histogram, when the shared memory suffices: every entry is the statistics of exactly the I/Os of its priority, none is listed twice or missing; and without statistics per priority there is one priority only. Refuted otherwise: jobs with and without lat_percentiles put total and completion latencies into one entry; with and without clat_percentiles the histogram has fewer samples than the entry; without memory I/Os are left out and no error is given."
  },
  {
   "property": "C105",
   "status": "partial",
   "theorems": [
    "Fio.AllClients.C105_summary_partial",
    "Fio.AllClients.C105_single",
    "Fio.AllClients.C105_announced_partial",
    "Fio.AllClients.ex_calm",
    "Fio.AllClients.C105_example",
    "Fio.AllClients.C105_refused_counterexample",
    "Fio.AllClients.C105_refused_none_counterexample",
    "Fio.AllClients.C105_lost_counterexample",
    "Fio.AllClients.C105_late_counterexample",
    "Fio.AllClients.C105_start_counterexample",
    "Fio.AllClients.C105_announced_counterexample",
    "Fio.AllClients.C105_groups_counterexample",
    "Fio.AllClients.C105_mixed_counterexample"
   ],
   "note": "Proved: if all servers start before the first entry comes, none leaves without having sent an entry and they send as many as announced, the summary is shown once and is the sum of all entries; for one entry there is none; the number announced is that of the report if every section is a group of its own. Refuted otherwise: a server that leaves before it starts makes the summary come too early or not at all, one lost with two entries or behind the last entry of the others suppresses it, a late start makes two; sections with group_reporting in one group are announced one by one, so that the summary of such servers is never shown; entries of one group bring the sums of the group each, so that they are counted twice."
  },
  {
   "property": "C106",
   "status": "partial",
   "theorems": [
    "Fio.Eta.C106_safe",
    "Fio.Eta.C106_answers",
    "Fio.Eta.C106_answers_exist",
    "Fio.Eta.C106_shown_partial",
    "Fio.Eta.C106_example",
    "Fio.Eta.ex_attended",
    "Fio.Eta.C106_idle_counterexample",
    "Fio.Eta.C106_empty_counterexample"
   ],
   "note": "Proved for all sequences of events: no assertion fails, no use after free, no request shown twice, and what is shown are the awaited answers. Proved if all servers are running at every request: when nothing is awaited any more, every request has been shown. Refuted otherwise: a server that is not running is counted in pending but not asked, so that the request is neither shown nor freed; if all servers still owe an answer, the next request is shown without any."
  },
  {
   "property": "C107",
   "status": "proved",
   "theorems": [
    "Fio.RunStr.C107_says",
    "Fio.RunStr.C107_unique",
    "Fio.RunStr.C107_injective",
    "Fio.RunStr.C107_fits",
    "Fio.RunStr.C107_fits_example",
    "Fio.RunStr.C107_time",
    "Fio.RunStr.C107_time_counterexample",
    "Fio.RunStr.C107_time_fits",
    "Fio.RunStr.C107_example"
   ],
   "note": "For strings of all lengths. The sizes of the buffers are exact for run_str (an example writes all of it). The bound of 2^32 days on the time is needed, as the counterexample shows. That __run_str holds no more states than there are jobs is a hypothesis of C107_fits."
  },
  {
   "property": "C108",
   "status": "proved",
   "theorems": [
    "Fio.Timers.C108_rate",
    "Fio.Timers.C108_exact",
    "Fio.Timers.C108_sleep",
    "Fio.Timers.C108_kept",
    "Fio.Timers.C108_again",
    "Fio.Timers.C108_example",
    "Fio.Timers.C108_late_counterexample",
    "Fio.Timers.C108_error_counterexample"
   ],
   "note": "For all runs without a reset of the timers and without errors of the functions; the accuracy must not exceed the interval. C108_late_counterexample shows that the condition on oversleeping is needed. C108_error_counterexample shows beside the property that an error of a function other than the last is lost."
  },
  {
   "property": "C109",
   "status": "proved",
   "theorems": [
    "Fio.NullEng.C109_order",
    "Fio.NullEng.C109_all",
    "Fio.NullEng.C109_busy",
    "Fio.NullEng.C109_example",
    "Fio.NullEng.C109_max_counterexample",
    "Fio.NullEng.C109_depth_counterexample"
   ],
   "note": "For all sequences of operations. That fio hands over no more than iodepth units is a hypothesis and needed (counterexample). Beside the property: getevents does not keep to max, and returns nothing with min 0."
  },
  {
   "property": "C110",
   "status": "proved",
   "theorems": [
    "Fio.PosixAio.C110_safe",
    "Fio.PosixAio.C110_reaped",
    "Fio.PosixAio.C110_waits",
    "Fio.PosixAio.C110_example",
    "Fio.PosixAio.C110_suspend_counterexample"
   ],
   "note": "For all histories of requests that end before or between the passes. C110_suspend_counterexample shows beside the property that aio_suspend is told of at most 8 units, so that the engine can sleep although another request is over."
  },
  {
   "property": "C111",
   "status": "partial",
   "theorems": [
    "Fio.WMode.C111_accepted",
    "Fio.WMode.C111_shares",
    "Fio.WMode.C111_every_partial",
    "Fio.WMode.C111_example",
    "Fio.WMode.C111_blank_counterexample",
    "Fio.WMode.C111_sum_counterexample"
   ],
   "note": "Acceptance and shares proved for all options that make sense. That every write gets an operation is proved if the blank entries divide what is left, and refuted otherwise: three blank entries get 33 of 100 each, and one write of 100 is refused with EINVAL. Options that make no sense can be accepted: the sum of the percentages is kept in 32 bits (counterexample)."
  },
  {
   "property": "C112",
   "status": "proved",
   "theorems": [
    "Fio.SkOut.C112_whole",
    "Fio.SkOut.C112_order",
    "Fio.SkOut.C112_all",
    "Fio.SkOut.C112_progress",
    "Fio.SkOut.C112_example",
    "Fio.SkOut.C112_overtake_counterexample"
   ],
   "note": "For all interleavings of the steps of the lock, the semaphore and the sending of parts. C112_overtake_counterexample shows beside the property that messages sent at once (SK_F_INLINE) overtake those queued before."
  },
  {
   "property": "C113",
   "status": "partial",
   "theorems": [
    "Fio.Splice.C113_read_partial",
    "Fio.Splice.C113_read_bound",
    "Fio.Splice.C113_read_progress",
    "Fio.Splice.C113_write",
    "Fio.Splice.C113_write_failed",
    "Fio.Splice.C113_example",
    "Fio.Splice.C113_write_example",
    "Fio.Splice.C113_eof_counterexample",
    "Fio.Splice.C113_ebadf_counterexample"
   ],
   "note": "Writes proved. Reads through the pipe proved if the pipe is empty at first and the unit lies inside the file. Refuted otherwise: a read across the end of the file never ends, and after vmsplice failed with EBADF the bytes left in the pipe shift all later reads. Missing: the data path of fio_splice_read with vmsplice."
  }
 ]
}