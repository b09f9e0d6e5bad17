# Formal model of axboe/fio in Lean 4 — design

## Layout

* `lean/Verif/<Area>/Model.lean` – executable model of the C code. Every definition cites `file:lines` of
  /repo and names its simplifications.
* `lean/Verif/<Area>/Spec.lean` – the small independent specification used in the statements (only where a
  statement needs more than lists and numbers).
* `lean/Verif/<Area>/Lemmas*.lean`, `Props*.lean` – invariants, helper lemmas and the property theorems
  (`C01`, `C02_…`); beside the theorems there are `example`s that meet their hypotheses.
* `lean/Verif/Common` – bytes and bounds-checked memory, little endian, bit lemmas, IEEE double rounding.
* `MANIFEST.json` – which theorem proves which property; a `partial` entry says what is missing.
* `seeded/LOG.jsonl` – deliberately wrong edits of the model and the theorems they broke.

## Trusted base

* The Lean 4.33.0 kernel and Mathlib's definitions, with the axioms `propext`, `Classical.choice` and
  `Quot.sound` at most (listed per theorem at the end). There is no `sorry`, no axiom of our own, no
  `native_decide` and no `bv_decide`; `decide +kernel` is evaluated by the kernel.
* The transcription from C to Lean. It was done by reading /repo; nothing was built or run. Each definition
  carries its citation so that it can be compared with the source.
* The statements of the property theorems and the small specifications they use.

### How C is represented

* Unsigned arithmetic is `BitVec w`, or `Nat` with an explicit `% 2 ^ w` where wrap-around can happen; where
  a `Nat` has no `%`, a comment or a hypothesis says why it does not overflow.
* A C array is a `List` or a function with a bound. Access out of bounds, a failed `assert`, an undefined
  shift, signed overflow, use after free, and a loop that does not end are explicit outcomes (`none`,
  `crash`, `abort`), so that "no undefined behaviour" is part of a theorem that says `= some …`.
* Loops are structural recursion over their data, or use fuel; the fuel is shown to suffice.
* Random draws, clocks, results of system calls, hash functions whose quality does not matter, and scheduling
  are parameters or lists of arbitrary values: the theorems hold for all of them.
* Threads are interleavings of atomic steps, sequentially consistent. A section under a mutex is one step
  where only that mutex protects the data, otherwise taking and releasing it are steps.

### Not modelled

The operating system, the I/O engines, weak memory, `malloc` failure unless mentioned, libm, option parsing
except where named, time keeping, the client's and server's job handling, output formatting other than
`num2str`, the GUI, and the tools in `t/` other than `t/dedupe.c`'s tree.

## Areas

| area | C code | properties | what is modelled, what is not |
|------|--------|------------|------------------------------|
| Axmap | lib/axmap.c, io_u.c random map | C01–C04 | all of axmap.c on 64-bit words; the map as fio uses it |
| Lfsr | lib/lfsr.c | C05, C06 | all, with the literal tap table; order certificates are checked by the kernel |
| Fifo, IouQueue | lib/fifo.c, io_u_queue.h | C07–C09 | all |
| Dist | lib/zipf.c, lib/gauss.c | C10 | integer part; `pow` is an arbitrary 64-bit value |
| Rand | lib/rand.h, lib/rand.c | C11, C12 | generators, seeding, rand_between with IEEE rounding |
| Stat | stat.c | C13–C15 | latency buckets, percentiles, sums over exact rationals; no output |
| Smalloc | smalloc.c | C16, C17 | one pool: bitmap, search, red zones; the list of pools is not modelled |
| IoLog | iolog.c, trim.c, verify.c list handling | C18, C34 | records, tree and lists as pointers in a heap |
| Crc | crc/*.c | C19, C20 | the CRCs with literal tables; hardware variants are not modelled |
| Pattern | lib/pattern.c | C21 | parsing, pasting and comparing patterns |
| Num2str | lib/num2str.c | C22 | all |
| Bloom | lib/bloom.c | C23 | all; hash functions are arbitrary |
| RbTree | lib/rbtree.c, t/dedupe.c | C24 | all, on the pointer level |
| IoGen | io_u.c, filesetup.c | C25 | offsets, lengths, zonemode none and strided; not zoned_abs distributions |
| VState | verify-state.h, verify.c, backend.c | C26, C27 | saving, loading and using verify state |
| Zbd | zbd.c | C28, C35, C36 | write zones, accounting, zbd_adjust_block; ioctl results are arbitrary |
| Steady | steadystate.c | C29 | window sums and slope; doubles are exact rationals |
| Flow | flow.c | C30 | all |
| Filelock | filelock.c | C31 | all, smalloc succeeding |
| ListSort | lib/flist_sort.c | C32 | the list merge, as lists |
| Verify | verify.c | C33 | headers, intervals, verify types as arbitrary checksums or CRCs |
| Net | server.c, client.c | C37 | messages; not the commands' contents |
| Overlap | backend.c, rate-submit.c, ioengines.c | C38 | the overlap check; verify_async is not modelled |
| Workq | workqueue.c | C39 | every shared access is a step; sequentially consistent memory; the lists are Lean lists |
| Clock | gettime.c, time.c, helper_thread.c | C40, C41 | 64 bit time_t and long; the rate is an input |
| Ramp | time.c | C42 | one look at all jobs is a step; no offload workers; times are numbers |
| Parse | parse.c, parse.h | C43, C44 | strtoll by the C standard; C locale; no arithmetic expressions, callbacks, allowed-value lists, string options |
| Json | json.c, lib/output_buffer.c | C45, C46 | doubles as shown by %f; a tree is a value (no parent pointers); allocation succeeds; bytes above 127 not checked for UTF-8 |
| Hash | crc/md5.c, sha1.c, sha256.c, sha512.c, sha3.c | C47 | little-endian machine; the unrolled rounds are written out as in the source; fio's callers pass the whole string in one update |
| IoU | io_u.c, ioengines.c, backend.c, verify.c | C48, C49, C50 | one job, no offload workers, no zones, no `experimental_verify`; what generators, engine and limits decide is an arbitrary answer; an engine reports only units it was given, each once; verification threads return units where the main thread looks at the free list |
| Fp | lib/ieee754.c | C51 | long double is a rational, an infinity or not-a-number; its rounding is any monotone function that keeps doubles; left shifts of negative `long long` are two's complement |
| Buf | backend.c init_io_u_buffers, memory.c, lib/memalign.c | C52, C53 | the system returns a block of the size asked for; 64-bit machine; `need` is the largest block size or the list of trim ranges |
| ZDist | options.c zone_split_ddir, zone-dist.c, io_u.c | C54 | entries of the option are given as numbers (what `str_to_decimal` and `atoi` return); random numbers are arguments; no random map |
| Rate | backend.c, io_u.c, init.c, ioengines.c: rate limits | C55 | microseconds are unbounded; the engine, clock, mix and Poisson delays are arbitrary; zoned devices (which may switch the direction) are left out |
| Log | stat.c, iolog.c, backend.c: growth of log buffers | C56 | one log of one job, entries are numbers; compression of logs is left out |
| LogAvg | stat.c: averaged logs | C57 | the mean is a rational number; buffers are those of Log |
| LatTarget | io_u.c: latency_target, nested completions | C58, C59 | a window is one verdict; the engine is an array of events and a queue of I/Os in flight, as in libaio |
| Sem | fio_sem.c | C60 | the mutex and the condition variable are those of POSIX; a call is one step for each time it has the lock |
| Rusage | stat.c, backend.c: the resource usage handshake | C61 | one job and the statistics thread; sequential consistency or store buffers |
| Xx | crc/xxhash.c | C62 | little-endian machines |
| Files | filesetup.c, ioengines.c, io_u.c: references to files and the choice of the next file | C63, C64 | one thread; outcomes of opens and of fill_io_u are the environment's |
| Jobs | backend.c: starting and reaping jobs (run_threads, reap_threads) | C65, C66, C67 | the main thread in single steps, interleaved with jobs, clock, terminations and kills; no failures of pthread_create and fork other than a job that does not get ready |
| Setup | filesetup.c: sizes and regions of files (get_start_offset, setup_files), extend_file; options.c: size= and offset= set twice | C68, C69, C70 | no zoned devices, iolog, sprandom; doubles as in Common/Double |
| Amount | backend.c: limits of do_io, keep_running | C71 | no verification, replay, time limit, errors; get_io_u and fio_files_done are an environment |
| Nvme | engines/nvme.c, nvme.h: geometry, protection information, commands | C72, C73 | the device is not modelled; the two guard formats share one definition with the differences by cases; fio_nvme_report_zones, write mode splits and pi_act=1 (the device inserts the information) are left out |
| Replay | iolog.c: write_iolog, read_iolog, chunks | C74, C75 | the log file does not exist before; C library functions as in the standard; replay_time_scale is an arbitrary function; clones, blktrace, sockets and reallocation of buffers are left out; an I/O is taken and completed one at a time |
| Split | options.c: bssplit; io_u.c: get_next_buflen | C76 | the text of the option is already numbers; qsort gives any sorted order; the draw itself is the model of IoGen |
| Ddir | io_u.c: get_rw_ddir, set_rw_ddir; counters of td_io_queue and requeue_io_u | C77 | rate_ddir, zonemode=zbd and trimwrite are inputs; one submitter (no offload) |
| Dedupe | io_u.c: fill_io_buffer, get_buf_state; lib/rand.c: fill_random_buf; dedupe.c | C78 | blocks below 4 GiB; the index in the working set is an input below its length (rand_between is C12); memory of the CPU |
| SyncEng | engines/sync.c: sync and psync engines; backend.c: io_queue_event (rest of a short transfer) | C79 | lseek of a valid offset does not fail; a failing transfer leaves the file position; no data, only places |
| Vsync | engines/sync.c: vsync engine; ioengines.c: td_io_queue, td_io_commit, td_io_getevents; backend.c: issuing loop, wait_for_completions | C80 | lseek does not fail; no rate control, think time, verify, offload; iodepth_batch_complete_min at most 1 |
| Libaio | engines/libaio.c: ring, queue, commit, getevents, event; ioengines.c: bounds of td_io_getevents | C81 | units are numbers; no times, priorities, statistics; the kernel answers with lists |
| Cmdprio | engines/cmdprio.c: all but allocation; options.c: parse_cmdprio_bssplit_entry, split_parse_prio_ddir after the scan; os/os-linux.h: ioprio_value | C82 | qsort is any sorted permutation; the random number is an argument; no allocation failures |
| Uring | engines/io_uring.c: rings, queue, commit, queued, cqring_reap, getevents, event (place only); ioengines.c: clamping in td_io_getevents; lib/fls.h, lib/roundup.h | C83 | the kernel is any sequence of taking and posting; rings of any power of two at least iodepth; memory is sequentially consistent; contents of entries not modelled here |
| Sqe | engines/io_uring.c: fio_ioring_prep, fio_ioring_prep_md (addresses only), fio_ioring_event, fio_ioring_cmd_event (results) | C84 | what the kernel does with an entry is written down from its documented interface; little endian |
| Mmap | engines/mmap.c: open, close, prep (full and limited), queue for reads, writes, syncs | C85 | shared mappings are the file itself; pointers are a mapping and a distance; no odirect, huge pages, trims; offsets do not wrap |
| VAsync | verify.c: the threads of verify_async, their start and end, the hand-over | C86 | critical sections are single steps; the data is an oracle; the free list is C48; locks do not fail |
| Dp | dataplacement.c, the option for ids in options.c, the query in engines/io_uring.c | C87 | the option and scheme file as numbers; the answers of the device are given; memory does not run out |
| Spr | sprandom.c get_next_offset, add_with_probability, pcbuf.h | C88 | the blocks of the LFSR as a list (C05), draws as input (C12); the floating point shares and ring size are given |
| Ini | init.c reading of job files, strip functions of parse.c | C89 | text without NUL; what the options mean is a function; no shortage of memory or threads; the number of files that can be open is a bound on nesting |
| Sub | options.c: fio_option_dup_subs, fio_keyword_replace, bc_calc, dup_and_sub_options, fio_options_parse; parse.c: get_option, parse_option | C90 | which names and values are accepted (handle_option) is a function; the calculator is a function; an option is a text of characters without NUL |
| Sg | engines/sg.c: fio_sgio_prep, fio_sgio_rw_lba, fio_sgio_unmap_setup, fio_sgio_commit, fio_sgio_getevents, fio_sgio_rw_doio, fio_sgio_read_capacity, fio_sgio_get_file_size | C91 | what a device answers is given; a command is its 16 bytes, direction and length of data; poll and the choice of read/ioctl are left out; the meaning of the commands (Spec.decode, Spec.ranges) is from the SCSI standard |
| Think | backend.c: handle_thinktime, init_thinktime; libfio.c: update_thinktime_blocks_counter, reset_all_stats (counters of thinktime) | C92 | times are microseconds; clock, spinning and sleeping are given; the counter is the sum over the directions |
| Seq | lib/seqlock.h; gettime.h: fio_gettime_offload; gettime-thread.c: fio_gtod_update | C93 | a store buffer (in order, or stores to different places overtaking each other with release stores kept last); loads in program order; a reader does not change anything, so one is enough |
| Du | diskutil.c: get_io_ticks, safe_32bit_diff, update_io_tick_disk, disk_util_add, find_add_disk_slaves; diskutil.h: disk_util_mod; stat.c: aggregate_slaves_stats, show_disk_util (how often) | C94 | disks are numbers; sysfs and the clock are given; finding the directory, names and the percentage are left out |
| TsNet | server.c: fio_server_send_ts, convert_io_stat, convert_gs; client.c: convert_ts, convert_io_stat, convert_gs, FIO_NET_CMD_TS in fio_handle_client; stat.h: thread_stat, group_run_stats, clat_prio_stat | C95 | the struct is a map from fields and indices to bytes, what is behind it is flat memory; pads, a failing calloc and the command's way (C37) left out; pack754 given (C51) |
| Smalloc/Multi | smalloc.c: smalloc, sfree, smalloc_debug, ptr_valid, add_pool | C96 | one call at a time, on the pools of C16; a second model runs several calls of smalloc side by side with fixed room per pool; messages and mmap failing left out |
| Mtrim | io_u.c: fill_multi_range_io_u, the part of fill_io_u behind it, mark_random_map; engines/nvme.c: fio_nvme_uring_cmd_trim_prep | C97 | offset and length generators are the environment; the random map is a set of blocks (C01, C02); zoned mode and data placement left out |
| Blkmerge | blktrace.c: merge_blktrace_iologs, read_trace, merge_finish_file, find_earliest_io, init_merge_param_list, is_blktrace, byteswap_trace, discard_pdu, write_trace; the call in init.c: add_job | C98 | little endian host; no errors of reading or writing; scales and iterations are whole numbers; splitting of file names left out |
| Blkreplay | blktrace.c: init_blktrace_read, read_blktrace, queue_trace, handle_trace_*, trace_add_file, store_ipo, depth_*; iolog.c: delay_since_ttime; filesetup.c: add_file_exclusive | C99 | device lookup and floating point scaling of delays are the environment; no reading in chunks; counters without overflow |
| Cconv | cconv.c: all functions but free_thread_options_to_cpu; thread_options.h: both structs | C100 | pack754/unpack754 given (C51); malloc succeeds; no cpu masks, verify_fmt, ignore_error |
| NetLog | server.c: fio_send_iolog, fio_append_iolog_gz, fio_append_text_log, fio_append_gz_chunks; client.c: convert_iolog, convert_iolog_gz, fio_client_handle_iolog; iolog.c: flush_samples, flush_log | C101 | zlib given by what its calls put out; 64 bit hosts; no histogram text |
| LockFile | filesetup.c: lock_file, unlock_file, unlock_file_all, file_lookup_open, the hash part of generic_open_file and put_file; ioengines.c: the locking of td_io_prep and td_io_queue | C102 | one file name; steps between points of waiting; semaphore and rwlock by their values |
| Report | stat.c: the loops of __show_run_stats with sum_thread_stats for bytes and runtime, init_group_run_stat | C103 | of the statistics only bytes and runtimes; text of the report not modelled |
| PrioStat | stat.c: add_lat_sample, add_clat_sample (without logs), sum_clat_prio_stats with its helpers, sum_thread_stats for the priorities, init_per_prio_stats; io_u.c: account_io_completion | C104 | counters do not wrap; means and deviations (C15), logs and the text of the report not modelled; arrays of a job are given (C82) |
| AllClients | client.c: handle_start, handle_ts, fio_put_client (did_stat), client_ts and client_gs; stat.c: sum_group_stats, sum_thread_stats for bytes and runtimes; init.c: stat_number in get_new_job | C105 | counters sum_stat_clients and sum_stat_nr unbounded; other statistics and the text not modelled |
| Eta | client.c: request_client_etas, handle_eta, fio_client_dec_jobs_eta, remove_reply_cmd, handle_cmd_timeout, remove_client | C106 | an answer is one number (fio_client_sum_jobs_eta not modelled); memory of a request is its number; other messages not modelled |
| RunStr | eta.c: update_condensed_str, eta_to_str; sizes of run_str and of the memory of get_jobs_eta | C107 | a string is the list of its characters before the 0; %u and %02u of printf written out; who fills __run_str not modelled |
| Timers | helper_thread.c: eval_timer, reset_timers, loop of helper_thread_main; gettime.c: rel_time_since; time.c: timespec_add_msec | C108 | a timespec is its nanoseconds (normal form and overflow not modelled); functions only counted; waiting is any time given from outside; signals and pipe not modelled |
| NullEng | engines/null.c: null_init, null_queue, null_commit, null_getevents, null_event | C109 | not synchronous (iodepth other than 1); a unit is its number; times and statistics not modelled; the caller reads the events at once |
| PosixAio | engines/posixaio.c: fio_posixaio_getevents | C110 | units with flags, result and request only; requests end before a pass; time is a bit for each pass; max is not used in the code; queueing not modelled |
| WMode | engines/io_uring.c: str_write_mode_cb, fio_ioring_cmd_prep_write_split | C111 | text of the option already split, atoi not modelled; a draw is any number below 100 (rand_between: C12); the command itself: C73 |
| SkOut | server.c: fio_net_queue_entry, handle_sk_entry, send_vec_entry, handle_xmits | C112 | sending of a part does not fail (C37 for its content); memory of messages and the flag MORE not modelled; one thread empties the queue |
| Splice | engines/splice.c: fio_splice_read_old, fio_splice_write; fio_splice_read only up to -EBADF | C113 | the pipe is a list of bytes without limit; how much calls move comes from outside; vmsplice to the user not modelled |

## What was found in the code

Properties that are false of the code are proved false by a concrete case, and the correct part is proved
with the condition it needs. In the order of the properties:

* C10: `gauss_next` does not terminate for some parameters (lib/gauss.c).
* C11: some seeds are fixed points of the Tausworthe generators; fio's own seeds are not.
* C12: the top 1024 draws of the 64-bit generator exceed the range after rounding; 32-bit ranges from 2^31 on.
* C14: `reset_io_stats` does not reset `sync_stat.samples` (stat.c:3186), so sync percentiles after a ramp are
  taken from a wrong total.
* C15: the product of two `uint64_t` sample counts wraps.
* C16: `find_next_zero` shifts arithmetically and by 32 or more (smalloc.c:92-95, 144-149).
* C18: `io_hist_len` is decremented twice (iolog.c:395).
* C22: width, lost prefix, and base 1024 with decimal prefixes (stat.c:951).
* C25: sequential I/O with a fixed block size may cross the end of the region; zipf and friends round the
  number of blocks up (filesetup.c:1525); `last_block` wraps (io_u.c:77); sequential I/O with holes wraps to
  twice the file offset (io_u.c:462); a block size split without a small block never ends near the end of
  the region; percentages of splits wrap (options.c:177, 196).
* C26: `get_all_io_list` reads the in-flight slots before the counter; a failing write is briefly in neither
  list (io_u.c:2169-2194); errors of sync engines are not recorded (backend.c:455-461).
* C27: the size in the verify state header is not covered by the checksum.
* C28: `zbd_write_zone_put` decrements the counter of the job that releases, not the one that obtained
  (zbd.c:337-338).
* C29: `sum_x_sq` overflows from 1025 samples on.
* C33: `verify_io_u` forgets an error unless verify_fatal is set (verify.c:1037-1117); the checks of
  verify_offset are too weak (options.c:3526, init.c:944); `hdr_size` takes the type from the medium.
* C34: two uses after free with trim_percentage.
* C35: `zbd_finish_zone` and jobs without a threshold do not account.
* C36: a random trim may pick a conventional zone (zbd.c:2336-2363); a write of length zero is accepted in a
  conventional zone (zbd.c:2122-2137).
* C37: `fio_send_cmd_ext_pdu` does not set up `iov[0]` again after a write that ended inside the header
  (server.c:236-245, 1239); empty entries in a chain; the length of text is taken from the peer unchecked
  (server.c:455-463); partly arrived commands are lost without waiting (client.c:297).
* C38: jobs in their ramp time are skipped by `check_overlap` (rate-submit.c:40, fio.h:725-726); after
  FIO_Q_BUSY, in `fio_io_sync` and in `do_verify` the mutex is released without being held
  (rate-submit.c:80-90, backend.c:254, 780, ioengines.c:355).
* C41: `utime_since` divides a negative difference of nanoseconds, which C rounds up (gettime.c:453);
  `usec_sleep` returns without counting the interrupted sleep (time.c:90-91).
* C42: `ramp_period_check` looks at jobs that have not started, whose epoch is 0 (time.c:132-140, init.c:1750);
  it marks all jobs of a group, also those without a ramp period (time.c:172-175, 238-250).
* C43: the documented suffixes `ki`, `mi`, … are taken for `k`, `m`, … (parse.c:241-280; HOWTO.rst:565, 575), `10sec`
  is ten microseconds (parse.c:187-198; HOWTO.rst:584), a product above 64 bits wraps around (parse.c:398, 400),
  units are lost after a leading blank (parse.c:306-314) and for hexadecimal numbers, a `0x` anywhere in the string
  makes all of it hexadecimal (parse.c:379), `errno` is not reset before `strtoll` (parse.c:384-388).
* C44: `startdelay=1s-5s` starts after one microsecond at the earliest, as `get_mult_time` gets the whole string
  (parse.c:193); `FIO_OPT_INT` values are cut to 32 bits before the limits are checked (parse.c:521-546); errors after
  the first good value are dropped (parse.c:1067-1069).
* C45: the JSON output escapes only quotes and backslashes in strings (json.c:53-74), so a job description with a
  tab is not valid JSON; names are not escaped at all; a double that is NaN or infinite is printed as `nan` or `inf`.
* C46: a buffer of exactly 1024 bytes has no NUL, but with syslog it is printed with `%s` (log.c:26).
* C47: `fio_sha256_final` appends the length in bits little-endian and keeps only the low byte of each word (sha256.c:271-292), so `verify=sha256` compares 64 bits of a non-standard digest (and constant padding).
* C47: `fio_sha512_update` miscounts a piece of 2^29 bytes or more: `len << 3` has 32 bits, and `len >> 29` is added only after a carry (sha512.c:169-175).
* C48: `fio_io_sync` returns without `put_io_u` when the engine completes the sync with an error (backend.c:262-266): the unit is lost and `cur_depth` stays too high.
* C49: `td_io_getevents` calls the engine's `commit` hook itself (ioengines.c:306-310), so `io_u_queued` is not moved to `io_u_in_flight`. If all units come back then, `cur_depth` is 0, `td_io_commit` returns early, `io_u_in_flight` has wrapped below 0, and `io_u_quiesce` loops for ever. Example: `iodepth=3`, `iodepth_batch=2`, completions three at a time, a think time after three I/Os.
* C50: the bytes of all parts of a short transfer but the last are never added to `io_bytes`; an asynchronous engine's short transfer is counted as several I/Os; a synchronous engine's short transfer at the end of the file counts 0 bytes; an asynchronous engine that transfers 0 bytes without an error is taken for a success (a synchronous one is not).
* C50: a short transfer found by the final `io_u_queued_complete` of `do_io` is put on the ring and never finished.
* C50: `__get_io_u` clears IO_U_F_VER_LIST and IO_U_F_TRIMMED also for units issued again (io_u.c:1787), and `td_io_queue` takes back a count for a busy unit of the verification list that was never counted (ioengines.c:399).
- C51: `pack754` never returns for an infinity, converts not-a-number to an integer (undefined), sends subnormals below 2^-1023 as huge negative numbers and 2^-1023 as zero (lib/ieee754.c:32-49).
- C52: `alloc_mem_shm` takes the size as `unsigned int` (memory.c:63), and `init_io_u_buffers` masks the size with a 32-bit mask for huge pages (backend.c:1639): with 4 GiB or more of buffers the job gets only the rest modulo 2^32 and writes beyond it.
- C52: replaying a log that has trims and writes with `num_range` above 1 gives each unit 16 bytes per range but fills it with the whole block size (backend.c:1611-1678); the check in init.c:638 runs before the log is read.
- C52: `iomem_align` above the page size moves the first buffer off a page boundary by that much and does not align it (backend.c:1652).
- C54: `random_distribution=zoned:100` (one zone, no size) gives the zone 0% of the file, and all I/O goes to block 0 (options.c:1268-1275); a zone left with 0% behind zones that have everything sends its I/O to the block behind the file, which ends the job.
- C54: access percentages are stored in `uint8_t` before they are checked (options.c:1211): `zoned:356/10` is accepted as 100%.
- C54: with `random_generator=lfsr` the block comes from the whole file and is then moved by the start of the zone (io_u.c:104-148, 282), so it is outside the zone and may be outside the file.
- C55: `rate_process=poisson` divides by zero in `usec_for_io` (backend.c:868) in a direction that has no limit, and below one block per second.
- C55: in a `trimwrite` job the direction is chosen after `rate_ddir` (io_u.c:875-881): limits of trims are ignored, and DDIR_TIMEOUT is overwritten.
- C55: `rate_iops` with `bssplit` uses an interval in whole microseconds (backend.c:893): 300000 I/Os per second become 333333, more than a million are unlimited.
- C55: a signal that interrupts `nanosleep` ends the wait (time.c:90) and the I/O goes early; so does one when the run time ends in that microsecond (io_u.c:797).
- C55: with `rate_min` and `rate_iops_min` only the first is checked (backend.c:186-211).
- C55: in handle_thinktime `(usperop - total) / usperop * -bs` is an integer division and always 0 (backend.c:992).
- C56: entries in the pending buffer when a job ends are never written (backend.c:1412-1428 completes the I/Os, nobody calls regrow_logs, iolog.c:945 frees them): with iodepth=1 the 1025th entry is lost.
- C56: with iodepth=2048 or more the pending entries do not fit in the second buffer, and regrow_log writes behind its end (stat.c:3050-3057).
- C56: with iodepth_batch_complete_max (or iodepth_low) and an iodepth from 513 to 1023 the assertion of stat.c:3114 can fail.
- C56: a failed regrow_log says that it stops logging but does not set `disabled`; the assertion of stat.c:3114 fails later.
- C57: in averaged bandwidth and IOPS logs an entry within LOG_MSEC_SLACK of the end of a window leaves `avg_last` where it was (stat.c:3313), so the next sample makes an entry of its own.
- C58: if the target is met up to iodepth - 1, the search goes back and forth for ever: after a miss at iodepth, latency_qd_high is iodepth, which means `no miss yet` (io_u.c:1612, 1690).
- C58: lat_target_check ignores that __lat_target_failed gives up (io_u.c:1738): with latency_percentile below 100 a job that misses the target at depth 1 runs on for ever.
- C58: a miss in the final run leaves latency_end_run set, and the job ends with the statistics of two depths (io_u.c:1700-1710).
- C59: with latency_target and iodepth_batch_complete_max above 1, __lat_target_failed calls io_u_quiesce from inside ios_completed, which overwrites the event array of the engine: I/Os of the outer batch are lost and others are completed twice (io_u.c:1624, 2333-2334).
- C60: fio_sem_up signals only if the value was 0 (fio_sem.c:170): two ups before the first woken thread has run wake only one of two waiting threads. No semaphore of fio is used that way at present.
- C60: fio_sem_down_timeout compares a time of CLOCK_MONOTONIC with one of gettimeofday (fio_sem.c:77-82, 97, 114), so the check for early timeouts does nothing.
- C61: stat.c:2836-2838 stores `update_rusage` and loads `runstate`, backend.c:2384-2390 stores `runstate` and loads `update_rusage`, without barriers; on x86 both loads may pass the stores, and the statistics thread waits for ever.
- C63: if a step of td_io_open_file fails after the engine has opened the file (pipe with random I/O, cache invalidation, write hint, direct I/O), the file is closed but stays marked as open, with a reference, and is counted (ioengines.c:637-641); the next choice takes it, and the I/O goes to descriptor -1.
- C63: get_next_verify and get_next_trim open files without regard to openfiles (verify.c:1480, trim.c:47).
- C63: a replayed log that closes a file twice takes it from I/O in flight; one that closes a file that is not open and then opens it fails the assertion in get_file (iolog.c:157, ioengines.c:531-537).
- C64: with openfiles, sequential service passes over a file that must not be opened yet, and takes the one after it next (io_u.c:1454, 1467).
- C64: get_next_file_rand spins for ever if the files left cannot be opened (io_u.c:1426), or, with zipf, pareto or normal service, are about to be closed with I/O in flight, for nothing is reaped meanwhile.
- C64: with verify_backlog and openfiles less than the number of files, get_next_verify opens a file that is done, and nothing closes it: the other files are never opened, and the job says -EBUSY for ever; with sequential service, the file that is done may be written anew.
- C65: start_delay is looked at before stonewall (backend.c:2766-2779): a job with stonewall starts before an earlier job whose delay is not over if nothing runs, and one with stonewall and start_delay does not hold back the jobs behind it.
- C66: a job terminated before it was created is subtracted from `todo` in every pass (backend.c:2761-2764): jobs nobody has terminated are never started and fio returns; or, if the termination comes while the main thread is between two such jobs, `todo` wraps around and fio never ends.
- C66: a process reaped by force 300 seconds after having been terminated that ends after all is reaped again: nr_running is too small, and fio returns while jobs run (backend.c:2472-2486).
- C66: if a job does not get ready within 10 seconds, jobs created in the same pass are not counted in nr_running, but subtracted from it when they are killed (backend.c:2841-2890, 2486).
- C66: a third job of the same name as the one a second waits for, which waits for the second in turn, is accepted, as wait_for_ok looks at the jobs so far only: neither is ever started.
- C67: the end of reap_threads compares nr_running with the number of all jobs with cpuio, ended ones included: if threads with cpuio end first, the jobs that do I/O are terminated; and as running processes are counted in `pending`, processes with cpuio are never terminated (backend.c:2489, 2504).
- C68: an existing file whose size is the one given by filesize, with an offset beyond its end: the size of the region wraps around (filesetup.c:1296).
- C68: a size from a range is rounded down to a block after it was drawn, and may be smaller than the offset: the size of the region wraps around (filesetup.c:447, 1292).
- C68: fill_device with an offset lays the file out up to one byte before the offset (filesetup.c:1325, 1397: -1 + offset wraps around).
- C68: total_size is set to -1 for a file of unknown size and then added to (filesetup.c:1195-1198, 1299-1322).
- C68: offset_align=0 with an offset in percent divides by zero (filesetup.c:1046).
- C68: nr_fs_extra is the remainder modulo the number of files, divided by the block size, so it is zero unless there are more files than bytes in a block (filesetup.c:1226-1234).
- C68: a percentage for size, offset or offset_increment is not reset by a later setting in bytes (options.c:1862, 1882, 1902).
- C69: with offset_align clones that ask for 25 percent each share bytes.
- C71: io_size larger than size together with loops: keep_running compares with io_size, not io_size times loops, so the job ends early (backend.c:1830-1850).
- C71: number_ios is doubled each time do_io is entered in trimwrite mode, so with loops it grows exponentially (backend.c:1194).
- C72: application tag 0xFFFF (accepted by the option) silently disables all checks; 32 bit guards without storage tag are accepted and neither generated nor checked (engines/nvme.c:602-613).
- C73: more than 65536 blocks overflow the block count of the command into other fields (engines/nvme.c:394); zone reset, finish and report shift by lba_shift, which is 0 for extended blocks (engines/nvme.c:747-772, 843, 882); writefua overwrites the deac flag (engines/io_uring.c:1696,1714); fio_nvme_reset_wp loses the error of all but the last zone (engines/nvme.c:858).
- C74: syncfs and sync_file_range entries are lost; names with white space make the log unreadable; lengths of 4 GiB and more are truncated; the size of the job counts an uninitialised variable for add/open lines and the last length again for close lines (iolog.c:611-618); with `directory` the replay reads td->files[-1]; a sync line with a length overwrites the bssplit pointer (max_bs[3], iolog.c:612-615); pauses before skipped entries are lost; replay_redirect with two files fails an assertion when the first is closed; a file opened again while I/O is in flight fails an assertion; td_io_queue logs an I/O again for each FIO_Q_BUSY (ioengines.c:367), so the replay does it more often than the job.
- C75: a chunked replay ends after the first 10 entries if the device is slow; (highmark - current) * 1000000000 overflows 32 bits from 5 entries on (iolog.c:435).
- C76: percentages of more or less than 100 are accepted (options.c:177 tests `perc_missing > 1`); with exactly one missing and more than 100 given, the missing one takes all I/O; a negative percentage is 100; sizes that are not multiples of the smallest are never used; with bs_unaligned half of the I/Os of 4k-8k have 8k; if the smallest size has no share, get_next_buflen loops for ever at the end of the file.
- C77: with verify_backlog (or trim_backlog) a sync due after the write that fills the backlog is lost, with verify_backlog=fsync there is no sync at all; fdatasync is skipped where fsync is due; verify reads are subtracted from io_issues on FIO_Q_BUSY though never added (ioengines.c:388,402), the count wraps below 0 and a mixed job only writes from then on; after DDIR_TIMEOUT from rate_ddir the next get_rw_ddir reads io_issues[-2].
- C78: buffer_compress_percentage=100 becomes zero_buffers with percentage 0 (init.c:1024-1026), and with dedupe_percentage zero_buffers is ignored: the data is random; the working set counts min_bs / chunk seeds for a page where fill_io_buffer uses the quotient rounded up; with size=N% the working set has 0 pages and its first entry is written outside of the array. In dedupe_mode=repeat a repeated buffer has the content of the next one, not of the previous one.
- C79: fio_syncio_prep seeks for a trim too, but the trim does not update engine_pos: a write that continues at engine_pos is then written to the place just trimmed (sequential writes with trim_backlog, replay of a log with trims). The same after an I/O error with continue_on_error, and after a unit skipped because of the verify state (backend.c:1294).
- C80: vsync with iodepth > iodepth_batch (default 1): a committed unit's slot is overwritten by the next one before it is reaped; it is never handed back, io_u_quiesce and, with iodepth_low, wait_for_completions then never return. A trim is done as writev of the unit's buffer.
- C81: the wait of fio_libaio_commit for EAGAIN "if we have no queued IO" tests ld->queued, which is never 0 there: with nothing in flight the commit returns 0 and getevents blocks for ever. getevents returns the error of a later io_getevents and drops the events it already has. actual_min is decreased by the total number of events each time (libaio.c:254), so the last part of the wait is a busy loop.
- C82: fio_libaio_queue and fio_ioring_queue call fio_cmdprio_set_ioprio for syncs, and io_uring for trims, too: perc_entry[3] and bsprio_desc[3] (engines/cmdprio.c:235,238) are outside of arrays of two.
- C83: fio_ioring_commit calls fio_ioring_cqring_reap(td, ld->queued) on EAGAIN and EINTR (engines/io_uring.c:1339-1345), which advances the completion head; the next getevents starts at the new head, so these units never come back and the job waits for ever. An error of io_uring_enter in getevents (1152-1154) drops the events consumed earlier in the same call. getevents with min = 0 loops until there is an event.
- C84: fio_ioring_prep sets fsync_flags with |= and never clears it (engines/io_uring.c:793), so a sync after an fdatasync in the same place is only a data sync, and after reads or writes with RWF_ flags or with registered buffers the kernel rejects it; for SYNC_FILE_RANGE addr and buf_index are not cleared (784-787), so it is rejected after a write in the same place; its length is cut to 32 bits. fio_ioring_event reports a trim refused by the kernel as done without error and with nothing moved (977-987).
- C85: fio_mmapio_prep_limited and prep_full set mmap_off and mmap_sz before mapping, and a unit too long leaves the old values with mmap_ptr NULL, so that after a failure the next unit in that window passes the test in fio_mmapio_prep and uses a null or dangling pointer (engines/mmap.c:151-161,181-184,201-203). fio_mmapio_queue syncs only the window mapped last (241). fio_mmapio_close_file does not unmap (306-316).
- C86: verify_async_thread overwrites ret for each unit of its list (verify.c:1558), so that a fatal error is lost unless the bad unit is the last one. At exit units still in verify_list while the threads are busy are never verified (1533-1534). nr_verify_threads++ (1611) is not under io_u_lock although the threads decrement it.
- C87: init_ruh_info accepts a device that has no ids, and dp_fill_dspec_data then reads plis[0] past the end (dataplacement.c:229-233,257-258); the second query may return a larger number than was allocated for (engines/io_uring.c:2387); dp_init is called for all files whenever one is opened in a replay (iolog.c:145), which starts the turns of all files anew and leaks their data.
- C88: the region is compared with num_regions before it is counted up (sprandom.c:771,781), so that with blocks left after the last region invalid_pct is read past its end (693); if all writes of a region are drawn the next has one too many, and after that writes_remaining can wrap (783); the ring is sized by an estimate and assert(false) stops fio if more are drawn (699); spr_num_regions=1 makes a ring of 0 places and the first draw of 0 divides by zero (pcbuf.h:96).
- C89: the error of an include is overwritten by that of the section (init.c:2283,2306): a missing included file at the end of a section is ignored and the jobs run without it; an included file without options frees the options of its section (2152,2349), which are then used; in a job sent to a server the name of an included file is parsed as its text (2269), or a null pointer given to strrchr (2259); --section is forgotten after the first job file (2339-2347); [globalx] is a global section; an unterminated [name loses its last letter.
- C90: the value of a variable for which there is no room is left out silently, and a text longer than 8192 characters is cut (options.c:6022, 6034); a keyword whose value is longer than the keyword overruns the memory taken (options.c:6067, 6077), e.g. when the number of CPUs is -1; an option with a keyword and a `/` or `-` in its value (directory=/tmp/run-$ncpus) is given to bc and refused; an option of an engine written with a blank before `=` gets a wrong value, "hipri =1" becomes "hipri=11" (parse.c:1230 moves the text without its end).
- C91: the number of blocks is cut to 16 bits (sg.c:525): a transfer of 32 MiB in 512-byte blocks reads, writes or verifies nothing, and a WRITE SAME of 32 MiB goes to the end of the device; block sizes such as 520 are tested with a mask, whole blocks are refused and other lengths accepted (sg.c:542); offsets within a block are rounded down; trims of several files all go to the file of the first (sg.c:640-655, 770); 4096 trims send no range (sg.c:683); a failed commit leaves its ranges for the next (sg.c:776-795); with several files getevents waits for as many events on each file as are wanted in all; an error of the read loses completions (sg.c:359); a synchronous command ends at the error of another unit (sg.c:490); every file gets the size of the first (sg.c:830).
- C92: the number of I/Os is read before waiting for those in flight (backend.c:941, 948, 1004): those completed meanwhile count for the next pause, which comes at once; if the ramp period ends after that, `last_thinktime_blocks + thinktime_blocks` is negative and, compared as unsigned, never reached: the job never thinks again; if it ends during the wait, the next pause comes only after as many I/Os as there were in the ramp period.  Past the end of the run `runtime_left` wraps and the pause is not shortened; a thinktime of 2^31 us or more sleeps for ever (`int left`).
- C93: write_seqlock_begin has no barrier between the odd number and the data (lib/seqlock.h:44-47): on weakly ordered machines, or by the compiler (the data is not volatile), a torn time can be read; before the first update, and for ever if the CPU of the clock thread cannot be set, the time is zero (gettime-thread.c:46-53).
- C94: the last look (backend.c:2924) comes when no file is open and is skipped for lack of users (diskutil.c:103): what was done after the last look of the helper thread is never counted, a job shorter than 250 ms gets zeros; disk_util_mod goes through `du->slavelist` (the hook) instead of `du->slaves` (diskutil.h:91): for a member of a known RAID it takes the head of the list in its master for a disk and changes memory behind it; aggregated numbers are added up again at each printing (two output formats: twice as much), and the busy time never is (stat.c:1027-1039); a member that is known already is not a part (diskutil.c:262); the result of the first reading is ignored (diskutil.c:350); each look loses up to a millisecond.
- C95: fio_server_send_ts takes the already converted number of block infos as the bound of its loop (server.c:1824-1825): a big endian server with one block info goes through 2^56 of them; the client uses places and counts of a message without comparing them with its size (client.c:1875-1895, 1052, 1066): a message can make it read and change memory outside.
- C96: __smalloc_pool goes on nr_blocks behind a free block whose run was too short (smalloc.c:423-432): with blocks 0, 2, 3, 4, 31 free a request of three blocks gets NULL. last_pool is not protected (smalloc.c:525-541): a call that finds it reset by another one returns NULL without having tried the pools before its start. scalloc multiplies without checking.
- C97: fill_io_u compares the offset of the last range plus the length of all ranges with the file size (io_u.c:1124): a command whose ranges end at the end of the file is refused and the file marked as done, so the tail is never trimmed; fill_multi_range_io_u throws away what mark_random_map returns (io_u.c:1062), so with a range of block sizes blocks are trimmed twice.
- C98: add_job negates what merge_blktrace_iologs returns (init.c:1957), which is 0 for success: a job is refused when the traces were merged and taken when they were not; iter and length of the cursors are never initialised (blktrace.c:709); merge_finish_file goes back to the start of a file without reading, so the last record is written again and its data skipped at the start of the file (blktrace.c:640-643); the length of a trace is scaled twice (blktrace.c:668, 690); the cursor of a file without records is used again with one iteration done (blktrace.c:768-771); a cut record is taken as a record (blktrace.c:667-670).
- C99: queue_trace stores the time of a record before it is known whether the record is replayed (blktrace.c:326-328), so replay_skip shortens the replay; trace_add_file stores major and minor in its cache before the lookup and leaves the old file number when it fails (blktrace.c:108-139), so the I/O goes to the wrong device; read_blktrace closes the file at err and leaves io_log_rfile, which init_blktrace_read closes again (blktrace.c:601-603, 424-427); a trace of flushes only gives an iodepth of 0 (blktrace.c:550-596).
- C100: convert_thread_options_to_net assigns ss_dur, ss_ramp_time, ss_state and ss_check_interval from `top` instead of `o` (cconv.c:673-677), memory from malloc (client.c:935, server.c:2375); log_hist_msec and log_hist_coarseness are never put into the message but read from it (cconv.c:225-226); size_nz, io_size_nz, start_offset_nz, zone_skip_nz, offset_increment_nz, ignore_error, error_dump, verify_state_save have an unused place; verify_only, job_max_open_zones, zrt, zrf, read_beyond_wp, read_iolog_chunked and the NUMA options have none; the size of a zone split is not sent. dp_nr_ids, bssplit_nr, zone_split_nr and random_sequence_nr of a received message are not checked: dp_nr_ids > 128 overwrites the options of the server behind dp_ids (cconv.c:387-389). The struct is read before top_sz is looked at (cconv.c:202). fio_test_cconv passes for all options since both messages lack the same.
- C101: fio_send_iolog never sets log_offset, log_prio and log_issue_time of the header (server.c:2296-2302) and fio_client_handle_iolog passes nr_samples * sizeof(struct io_sample) to flush_samples (client.c:1541-1544), which divides by the size with offsets: a client loses the last sixth (or 2/7) of every log with offsets, a log with one entry is empty; on big endian hosts the entries are also converted at wrong places. The client converts the priority (client.c:1774), the server does not. The first deflate(Z_FINISH) of fio_append_iolog_gz (server.c:2203) writes into the buffer of the last queued entry whose length is already set: these bytes are not sent (usually all of the end of the stream with its checksum), the client ignores that (Z_BUF_ERROR) and uses uninitialised memory for what is missing. A histogram log sent without zlib has no histograms and the client writes beyond the message. A log compressed by the job is stored compressed on the client even without log_store_compressed. convert_iolog_gz compares log_type without conversion (client.c:1659): histogram logs on a big endian client get too small a buffer.
- C102: a job takes over f->lock of whichever file of that name is in the hash when it opens (filesetup.c:685), so jobs that are not copies end up with different locks after a close, with none at all if the first has no lockfile, or with a rwlock taken for a semaphore (a union, file.h:142-145). td_io_queue unlocks after the engine's queue (ioengines.c:399) also when it was busy, while fio_io_sync (backend.c:253) and the offload worker queue again without locking: the semaphore is upped twice and lets two in from then on. dup_files mallocs file_locks without clearing it (filesetup.c:2117). do_verify with experimental_verify calls td_io_prep on an io_u that get_io_u has prepared: with lockfile=exclusive the job waits for itself forever. An io_u put back prepared (backend.c:728-735, 764-767) keeps the lock until the file is closed. With asynchronous engines the lock does not cover the I/O.
- C103: the count of entries (stat.c:2537-2551) and their use (stat.c:2563-2573) do not agree: last_ts is set by all jobs in the second loop and only by jobs with group_reporting in the first. A job with group_reporting that follows one without in the same group is merged into the entry of that one; the entry counted for it stays empty with groupid -1, for which the last loop (stat.c:2756) takes runstats[-1], and a server calls fio_server_send_job_options with the NULL of opt_lists, which flist_empty follows (server.c:1947). The same with a job that has stats=0 without group_reporting.
- C104: sum_thread_stats does not look at the result of sum_clat_prio_stats (stat.c:2357, 2369): if smalloc fails, I/Os are left out of the statistics per priority and the report is made as if nothing happened. Jobs of a group that differ in lat_percentiles put different latencies into one entry, which the report shows under the name of one of them.
- C105: stat_number (init.c:532) counts every section of a job file even if it has group_reporting, since the parent of its job is def_thread; a server with two sections in one group announces two entries and sends one, and the client never shows "All clients" (client.c:1159). A client whose job file was refused takes one from sum_stat_clients although it never added to it (client.c:271): the summary is shown without the last entry. client_gs adds the sums of a group once for each of its entries (client.c:1141).
- C106: request_client_etas sets pending to nr_clients but passes over servers that are not running without counting them (client.c:2047): with one such server the ETA of all others is not shown, and the memory of the request (with room for the state of all jobs) is lost, every second.
- C107: the days of eta_to_str are kept in 32 bits, so that 2^32 days are shown as 00m:00s (eta.c:143).
- C108: the loop over the timers overwrites ret (helper_thread.c:346-347), so that an error returned by any function but the last is lost; update_io_ticks, the only one that returns one, is the first.
- C109: null_getevents ignores max and returns all committed units, and returns none with min 0 although all are ready (engines/null.c:33-45).
- C110: fio_posixaio_getevents puts at most 8 units into the list for aio_suspend (engines/posixaio.c:46, 76): with more in flight it can sleep on although a request outside the list is over.
- C111: blank percentages in write_mode= are rounded down (engines/io_uring.c:361): with write/:zeroes/:uncor/ the shares add up to 99, and for the draw 99 no operation is found and the write is refused with EINVAL (engines/io_uring.c:847). The sum of the percentages has 32 bits (engines/io_uring.c:326), so that 2^32 + 100 passes.
- C112: fio_net_prep_cmd copies into the result of smalloc without looking at it (server.c, SK_F_COPY): without memory the server crashes. Messages with SK_F_INLINE overtake those queued before them.
- C113: at the end of a file splice returns 0 and the loops of fio_splice_read_old and fio_splice_read go on for ever (engines/splice.c:39, 102). When vmsplice fails with EBADF the bytes already in the pipe are not taken out before the read is begun again with fio_splice_read_old: from then on each read gets bytes of the one before (engines/splice.c:211-214).

## Axioms of the property theorems

* Classical.choice, Quot.sound, propext: Axmap: C01_isset, C01_off_by_one, C02_set_nr, C03_next_free, C04_pass; Lfsr: C05_permutation, C05_init, C06_reset, C06_reset_general; Fifo: C07_fifo, C07_fifo_any_position; IouQueue: C08_ring, C09_freelist; Dist: C10_gauss_partial, C10_gauss_value, C10_gauss_hang; Rand: C11_dead_seeds32, C12_between32_partial, C12_between64_partial, C12_top_draws, C12_counterexample64; Stat: C13_buckets, C13_representatives, C14_percentiles, C14_threshold, C14_sync_counterexample, C15_record, C15_merge, C15_merge_any_partial, C15_counterexample; Smalloc: C16, C16_defined, C16_zero, C16_others, C16_undefined, C16_undefined_reached, C17, C17_restored, C96_apart, C96_defined, C96_zero, C96_free, C96_null, C96_finds_partial; IoLog: C18, C18_newest, C18_ops, C34_partial, C18_ops; Verify: C19_accept, C19_single_bit, C33_roundtrip, C33_single_bit, C33_masked, C33_pattern, C33_offset, C33_offset_cases; Crc: C20_division, C20_burst, C20_single_bit, C20_bytes, C20_odd, C20_crc7_range; Pattern: C21_fill, C21_check, C21_agree, C21_fill_verify, C21_verify, C21_roundtrip; Num2str: C22_num2str_partial, C22_base1, C22_bits, C22_width_counterexample, C22_prefix_counterexample, C22_mixed_base_counterexample; Bloom: C23_no_false_negatives, C23_query_pure; RbTree: C24, C24_insert, C24_next; IoGen: C25, C25_issued, C25_trimwrite, C25_region, C25_region_random, C25_uniform, C25_uniform_top, C25_region_seq, C25_bssplit, C25_draw_ends; VState: C26_safe, C26_complete, C27_roundtrip, C27_version, C27_body, C27_crc, C27_truncated, C27_server; Zbd: C28, C28_defined, C28_get, C28_sum, C28_job, C36_write, C36_write_defined, C36_read, C36_conv; Steady: C29_slope_sums, C29_deviation_sums, C29_constants, C29_constants_overflow, C29_least_squares; Flow: C30_cleanup, C30_proportion, C30_progress; Filelock: C31_filelock; ListSort: C32_flist_sort, C32_equal_elements_keep_order; Net: C37, C37_send, C37_safe, C37_vec_partial, C37_ext_single, C37_flip, C37_flip_empty, C37_burst; Overlap: C38_offload, C38_no_abort, C38_inline; Workq: C39_once, C39_flush, C39_exit, C39_progress, C39_bound, C39_completes, C39_safe, C39_pick, C39_idle; Clock: C40_calibrates, C40_duration, C40_monotone, C41_ntime, C41_utime, C41_utime_back, C41_utime_mono, C41_reltime, C41_mtime, C41_add, C41_sleep, C41_sleep_ends, C41_timer; Ramp: C42_once, C42_final, C42_check_size, C42_check_group, C42_time; Parse: C43_data, C43_time, C43_percent, C43_hex, C43_reject, C43_too_big, C43_ki_counterexample, C43_overflow_counterexample, C43_blank_counterexample, C43_sec_counterexample, C43_hex_counterexample, C43_range_counterexample, C44_list, C44_pair, C44_time, C44_range, C44_limits, C44_time_range_counterexample, C44_int_counterexample, C44_error_counterexample; Json: C45_total, C45_roundtrip, C45_control_counterexample, C45_name_counterexample, C45_backslash_counterexample, C45_nan_counterexample, C45_inf_counterexample; Hash: C47_md5, md5_abc, C47_sha1, sha1_abc, C47_sha512, sha512_abc, C47_sha512_len_counterexample, C47_sha3, sha3_abc, C47_sha256_partial, sha256_abc, C47_sha256_counterexample; IoU: units_conserved_partial, units_back, one_place, get_exclusive, quiesce_ends, quiesce_means, drains, pieces_tile; Fp: wire_is_ieee, wire_read, round_trip, infinity_hangs, nan_undefined, subnormal_wrong, smallest_lost, all_arrive_counterexample; Buf: buffers_good, buffers_aligned, first_aligned, memalign_ok, memfree_original; ZDist: split_sums, split_given, split_given_abs, split_missing, table_ok, zoned_in, zones_disjoint, zoned_abs_in, sequence_ok, single_zone_counterexample; Rate: not_ahead, not_ahead_split, min_rate, min_iops; Log: in_order, no_failure, fits_default, all_complete, clean_complete, short_complete; LogAvg: every_sample, windows, slack_counterexample; LatTarget: in_range, reacts, finds, last_but_one_counterexample, once_single; Sem: counts, exclusive, exclusive_many, no_lost_wakeup, lock_progress; Rusage: no_deadlock, answers, fresh, one_token; Xx: in_parts, detects; Files: C63_in_flight_open_partial, C63_closes_partial, C63_references_partial, C63_count_partial, C63_goes_on_partial, C63_no_abort_partial, C63_limit_partial, C64_all_served_partial, C64_ends_partial, C64_round_robin_partial, C64_one_at_a_time_partial, C64_sequential_order_partial, C64_moves_on_partial, C64_open_fails_counterexample, C64_closing_counterexample; Jobs: C65_stonewall_alone_partial, C65_wait_for_partial, C65_stonewall_waits_partial, C65_stonewall_holds_partial, C66_all_done_partial, C66_events_bounded_partial, C66_progress_partial, C66_drain_progress_partial, C66_wait_for_cycle_counterexample, C67_cpuio_only_partial, C67_cpuio_ends_partial, C67_cpuio_process_counterexample; Setup: C68_regions_partial, C68_inside_partial, C68_sum_partial, C68_size_accepted_partial, C68_existing_partial, C69_clones_partial, C69_clones_percent_partial, C70_layout, C70_ends; Amount: C71_not_less_partial, C71_io_size_partial; Nvme: C72_written, C72_checked, C72_roundtrip, C72_damage, C72_bit, C72_tags, C72_misplaced, C72_geometry, C72_escape_counterexample, C73_blocks_partial, C73_pi, C73_zones_partial; Replay: C74_read_back_partial, C74_redirect_partial, C74_replay_partial, C74_replay_async_partial, C74_syncfs_counterexample, C74_space_counterexample, C74_length_counterexample, C74_size_counterexample, C74_directory_counterexample, C74_sync_length_counterexample, C74_skip_pause_counterexample, C74_redirect_close_counterexample, C74_reopen_counterexample, C74_short_line_counterexample, C75_chunked_partial, C75_slow_counterexample; Split: C76_share_partial, C76_range_partial, C76_accepts, C76_over_counterexample, C76_range_unaligned_counterexample; Ddir: C77_mix, C77_only, C77_one_direction, C77_backlog_counterexample; Dedupe: C78_repeat, C78_working_set_partial, C78_hundred, C78_share, C78_distinct; Vsync: C80_once_partial; Libaio: C81_kept, C81_none_dropped_partial, C81_commit, C81_commit_ends, C81_min, C81_queue; Cmdprio: C82_value, C82_parse, C82_accept, C82_share, C82_total, C82_index, C82_percentage; Uring: C83_kept, C83_no_crash, C83_room, C83_queue, C83_get, C83_get_ends, C83_not_blocked, C83_commit, C83_roundup, C83_setup; Sqe: C84_sync, C84_sync_clean; Mmap: C85_right, C85_sync; VAsync: C86_once, C86_after_exit, C86_exit_empty, C86_error_single_partial, C86_start_atomic; Dp: C87_option; Spr: C88_ring, C88_order, C88_all_written, C88_regions_partial, C88_no_failure_partial, C88_past_last_region_counterexample; Ini: C89_line, C89_file_partial, C89_buffer_partial, C89_files_partial, C89_files_stop, C89_files_all, C89_outside, C89_missing, C89_case, C89_chosen, C89_refused, C89_missing_include_counterexample, C89_section_in_include_counterexample, C89_empty_include_counterexample, C89_include_buffer_counterexample, C89_include_buffer_last_counterexample, C89_chosen_second_counterexample, C89_names_counterexample, C89_long_line_counterexample; Sub: C90_subst_total, C90_variables_partial, C90_math, C90_no_answer, C90_text_partial, C90_options_partial, C90_ok_partial, C90_case, C90_parse_case, C90_parse_fails, C90_long_value_counterexample, C90_cut_counterexample, C90_overflow_counterexample, C90_path_counterexample, C90_blank_counterexample; Sg: C91_command_partial, C91_unaligned_partial, C91_trims_partial, C91_events_partial, C91_capacity_partial, C91_size_partial; Think: C92_when_partial, C92_pause_partial, C92_long_enough_partial, C92_every_partial, C92_reset_partial; Seq: C93_untorn_partial; TsNet: C95_arrives_partial, C95_case, C95_mixed_case, C95_block_counterexample, C95_trust_counterexample; Mtrim: C97_ranges, C97_command, C97_disjoint_partial, C97_accept_partial, C97_tail_refused, C97_tail_counterexample; Blkmerge: C98_merge_partial, C98_refused_counterexample, C98_accepted_counterexample; Blkreplay: C99_replay, C99_timing_partial; Cconv: C100_roundtrip_partial, C100_case, C100_lost, C100_total, C100_selftest, C100_steady_counterexample, C100_hist_counterexample, C100_cut_counterexample, C100_zone_counterexample, C100_clear_counterexample; NetLog: C101_local, C101_arrives_partial, C101_same_partial, C101_cut, C101_stored, C101_example, C101_offset_counterexample, C101_big_counterexample, C101_prio_counterexample, C101_hist_counterexample, C101_finish_counterexample; LockFile: C102_exclusive_partial, C102_exclusive_live, C102_readwrite_partial, C102_readwrite_live, C102_hang_counterexample; Report: C103_room, C103_once, C103_grouped_partial, C103_entry, C103_mixed, C103_groups, C103_extremes, C103_mix_counterexample; PrioStat: C104_counts_partial, C104_mixed_partial; AllClients: C105_summary_partial; Eta: C106_safe, C106_answers, C106_answers_exist, C106_shown_partial; RunStr: C107_says, C107_injective, C107_fits, C107_time, C107_example; Timers: C108_rate, C108_exact, C108_sleep, C108_again; PosixAio: C110_safe, C110_reaped, C110_waits; WMode: C111_accepted, C111_shares, C111_every_partial; Splice: C113_read_partial, C113_read_bound, C113_read_progress, C113_write, C113_write_failed, C113_eof_counterexample
* Quot.sound, propext: Lfsr: C06_spin_counterexample; IouQueue: C08_overfull_loses_units; Dist: C10_zipf_rank; Rand: C11_components_partial, C11_default_seeds, C11_counterexample, C12_counterexample32; IoLog: C18_len_counterexample, C34_unlog_counterexample, C34_inflight_counterexample; Verify: C19_fields; IoGen: C25_trimwrite_inside, C25_seq_progress, C25_random_progress; VState.Race: C26_quiet_partial, C26_other_order, C26_race_counterexample, C26_fail_window_counterexample, C26_sync_failure_counterexample; Zbd: C28_job_counterexample, C28_job_wraps, C35_partial, C35_counterexample, C35_counterexample_jobs, C36_zone, C36_find, C36_find_complete, C36_trim_counterexample, C36_conv_counterexample; Net: C37_ext_counterexample, C37_vec_empty_counterexample, C37_text_counterexample, C37_nowait_counterexample; Overlap: C38_progress, C38_inline_progress; Clock: C40_zero, C40_rate; Ramp: C42_check_time; Json: C45_string, C46_contents, C46_grow, C46_nul_counterexample; IoU: prompt_replicate, quiesce_hangs, quiesce_hang_counterexample, short_continues, short_continues_sync, ring_first, bytes_counted; ZDist: split_accepts; Rate: no_needless_wait, run_inv, run_total, think_ok; Log: fits_batch, deep_counterexample; LatTarget: no_deeper, once_fast; Sem: no_needless_wait; Xx: one_shot; Files: C63_later_counterexample, C63_limit_counterexample, C64_verify_counterexample, C64_done_again_counterexample; Jobs: C66_terminated_wrap_counterexample, C66_timeout_wrap_counterexample; Setup: C68_setting_partial, C70_succeeds; Amount: C71_not_more_partial, C71_ends_partial; Nvme: C72_read_prep, C72_guard32_counterexample, C73_trim, C73_trim_multi; Split: C76_over_missing_counterexample, C76_under_counterexample, C76_unaligned_counterexample; Ddir: C77_sync_partial, C77_goes_on; Dedupe: C78_compress_all, C78_compress_counterexample, C78_chunk_counterexample, C78_small_counterexample; SyncEng: C79_psync, C79_parts, C79_parts_end; Vsync: C80_error, C80_queue; Libaio: C81_result, C81_wait_unreachable; Cmdprio: C82_sync_counterexample; Uring: C83_lost_counterexample, C83_error_counterexample, C83_zero_counterexample; Sqe: C84_rw, C84_trim, C84_file, C84_async, C84_event, C84_trim_event; Mmap: C85_parts; VAsync: C86_wakeup, C86_drained, C86_no_false_error, C86_counted, C86_exit_bounded, C86_exit_progress, C86_fifo, C86_error_lost_counterexample, C86_unverified_counterexample; Dp: C87_device, C87_indexed, C87_scheme, C87_rr, C87_rr_device, C87_scheme_file; Sub: C90_length, C90_keywords_partial; Sg: C91_files_block_counterexample, C91_many_trims_counterexample, C91_second_file_counterexample; Think: C92_never_counterexample, C92_kept, C92_rate_partial, C92_ramp_counterexample; Seq: C93_ends, C93_updates, C93_wrap_counterexample, C93_weak_counterexample, C93_zero_counterexample; Du: C94_counts_partial, C94_time_partial, C94_users_partial, C94_parts_partial, C94_known, C94_raid_partial, C94_printed_again_counterexample, C94_parts_case, C94_known_part_counterexample, C94_part_open_counterexample; Smalloc: C96_alone, C96_case, C96_skips_counterexample; Mtrim: C97_total; Blkmerge: C98_params, C98_case, C98_params_case, C98_memory_counterexample, C98_iterations_counterexample, C98_scale_counterexample, C98_seek_counterexample, C98_empty_counterexample, C98_wild_counterexample, C98_cut_counterexample; Blkreplay: C99_case, C99_skip_counterexample, C99_first_counterexample, C99_device_counterexample, C99_close_counterexample, C99_flush_counterexample, C99_long_counterexample; LockFile: C102_jobs_counterexample, C102_none_counterexample, C102_mode_counterexample, C102_busy_counterexample, C102_slot_counterexample, C102_drop_counterexample, C102_async_counterexample; Report: C103_stats_counterexample; PrioStat: C104_disabled; AllClients: C105_single, C105_announced_partial, ex_calm; Eta: C106_example, ex_attended, C106_idle_counterexample, C106_empty_counterexample; RunStr: C107_fits_example, C107_time_counterexample, C107_time_fits; Timers: C108_kept, C108_example, C108_late_counterexample; NullEng: C109_order, C109_all, C109_example; PosixAio: C110_suspend_counterexample; SkOut: C112_whole, C112_order, C112_all, C112_progress
* propext: Dist: C10_zipf_pareto; IoGen: C25_region_counterexample, C25_region_zipf_counterexample, C25_last_block_wraps, C25_holed_counterexample, C25_bssplit_hang, C25_bssplit_percent_counterexample; Overlap: C38_ramp_counterexample, C38_busy_counterexample, C38_main_counterexample; Ramp: C42_late_counterexample, C42_group_counterexample; IoU: sync_leak_counterexample, short_bytes_counterexample, eof_bytes_counterexample, zero_bytes_counterexample, short_at_end_counterexample, marks_lost_counterexample; Buf: shm_counterexample, huge_counterexample, log_counterexample, align_counterexample; ZDist: rest_empty_counterexample, percent_wraps_counterexample, lfsr_counterexample, special_end_counterexample; Rate: trimwrite_counterexample, poisson_counterexample; Log: batch_counterexample, nomem_counterexample; LatTarget: gives_up, give_up_counterexample, lost_counterexample; Files: C63_close_twice_counterexample, C63_close_open_counterexample, C64_sequential_counterexample; Jobs: C65_stonewall_delay_counterexample, C65_stonewall_holds_counterexample, C66_main_goes_partial, C66_terminated_lost_counterexample, C66_reaped_twice_counterexample, C67_cpuio_first_counterexample; Setup: C68_offset_counterexample, C68_range_counterexample, C68_fill_counterexample, C68_unknown_counterexample, C68_align_counterexample, C68_blocks_counterexample, C68_setting_counterexample, C69_align_counterexample; Amount: C71_goes_on, C71_io_size_loops_counterexample; Nvme: C73_nlb_counterexample, C73_zones_counterexample, C73_deac_counterexample; Split: C76_negative_counterexample, C76_end_counterexample; Ddir: C77_draws, C77_both_counterexample, C77_verify_busy_counterexample, C77_timeout_counterexample; SyncEng: C79_sync_partial, C79_all_partial, C79_wrong_iff, C79_trim_counterexample, C79_error_counterexample, C79_drop_counterexample; Vsync: C80_lost_counterexample, C80_quiesce_counterexample, C80_low_counterexample, C80_trim_counterexample; Libaio: C81_dropped_counterexample, C81_stall_counterexample, C81_busy_counterexample; Sqe: C84_others, C84_cmd_event, C84_datasync_counterexample, C84_flags_counterexample, C84_range_counterexample, C84_length_counterexample; Mmap: C85_failed_counterexample, C85_dangling_counterexample, C85_sync_counterexample, C85_leak_counterexample; VAsync: C86_error_last_partial, C86_stuck_counterexample; Dp: C87_streams, C87_started, C87_others, C87_random, C87_empty_counterexample, C87_unsteady_counterexample, C87_restart_counterexample; Spr: C88_write_too_many_counterexample, C88_wrap_counterexample, C88_ring_full_counterexample, C88_one_region_counterexample, C88_share_zero_counterexample; Sub: C90_no_math, C90_dropped; Sg: C91_sync_partial, C91_case, C91_long_read_counterexample, C91_write_same_counterexample, C91_verify_counterexample, C91_offset_counterexample, C91_520_counterexample, C91_two_files_counterexample, C91_failed_commit_counterexample; Think: C92_rate_kept; Seq: C93_case; Du: C94_skip, C94_case, C94_short_counterexample, C94_tail_counterexample, C94_first_counterexample, C94_time_counterexample; Smalloc: C96_race_counterexample; Mtrim: C97_case, C97_overlap_counterexample; Cconv: C100_number_counterexample, C100_string_counterexample, C100_short_counterexample, C100_limit_counterexample; NetLog: C101_room; Report: C103_extremes_example, C103_example, C103_between_counterexample, C103_runtime_counterexample, C103_agg_counterexample; PrioStat: C104_example, C104_kinds_counterexample, C104_percentiles_counterexample, C104_memory_counterexample; AllClients: C105_groups_counterexample; RunStr: C107_unique; NullEng: C109_busy, C109_depth_counterexample; WMode: C111_example, C111_blank_counterexample; SkOut: C112_example, C112_overtake_counterexample; Splice: C113_example, C113_write_example, C113_ebadf_counterexample
* none: IoLog: C18_len; Clock: C41_utime_counterexample, C41_sleep_interrupted_counterexample; IoU: in_flight_count; Rate: signal_counterexample, timeout_counterexample, split_counterexample, overflow_counterexample, min_both_counterexample, think_counterexample; Log: lost_counterexample; LatTarget: mixed_counterexample; Sem: lost_counterexample; Rusage: tso_counterexample; Amount: C71_number_ios_counterexample; Replay: C75_overflow_counterexample; Sqe: C84_trim_counterexample; VAsync: C86_start_race_counterexample; Sg: C91_events_case, C91_read_error_counterexample, C91_sync_trims_counterexample, C91_sync_error_counterexample, C91_second_size_counterexample; Think: C92_no_stop, C92_pause_case, C92_every_case, C92_twice_counterexample, C92_ramp_waiting_counterexample, C92_past_end_counterexample, C92_long_counterexample, C92_rate_counterexample; Seq: C93_start; Du: C94_part_counterexample, C94_busy_counterexample, C94_raid_case, C94_twice_counterexample; NetLog: C101_name_counterexample; AllClients: C105_example, C105_refused_counterexample, C105_refused_none_counterexample, C105_lost_counterexample, C105_late_counterexample, C105_start_counterexample, C105_announced_counterexample, C105_mixed_counterexample; Timers: C108_error_counterexample; NullEng: C109_max_counterexample; PosixAio: C110_example; WMode: C111_sum_counterexample
* Quot.sound: Sem: timeout_takes_nothing
