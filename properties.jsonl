{"id": "C01", "title": "The random map behaves as a set", "statement": "After any sequence of axmap operations (create for n blocks, mark one block, mark a run of blocks, reset) a query for block b < n answers true exactly when b was marked since the last reset, whatever the number of levels the map needed.", "quantifier": "every map size n>=1, every finite sequence of set/set_nr/reset operations within the map, every queried block", "why_tests_cant": "The number of map sizes, histories and level boundaries (64, 4096, 262144, ...) is unbounded; a test samples a few.", "anchors": ["lib/axmap.c:axmap_new", "lib/axmap.c:axmap_set_nr", "lib/axmap.c:axmap_isset", "lib/axmap.c:axmap_reset", "io_u.c:random_map_free"]}
{"id": "C02", "title": "Marking a run stops exactly at the first already-marked block", "statement": "axmap_set_nr(b,k) marks precisely the blocks b..b+r-1, where r is the length of the longest prefix of the requested run that was entirely unmarked, leaves all other blocks unchanged and returns r.", "quantifier": "every map state reachable by any history, every start block and run length that lies inside the map", "why_tests_cant": "Depends on the whole marking history and on word/level boundaries crossed by the run.", "anchors": ["lib/axmap.c:axmap_set_nr", "lib/axmap.c:axmap_set_fn", "io_u.c:mark_random_map"]}
{"id": "C03", "title": "next_free finds the cyclically next unmarked block and reports full exactly when full", "statement": "axmap_next_free(b) returns the first unmarked block in the cyclic order b+1, ..., n-1, 0, ..., and the 'none' value if and only if no block of the map is unmarked.", "quantifier": "every reachable map and every block b < n", "why_tests_cant": "A wrong answer only shows for particular fill patterns at particular level boundaries.", "anchors": ["lib/axmap.c:axmap_next_free", "lib/axmap.c:axmap_find_first_free"]}
{"id": "C04", "title": "Random I/O with a random map touches every block exactly once per pass", "statement": "With a random map, whatever values the random generator yields, the sequence of blocks produced by picking a random block (moving to the next free one if busy) and marking it never repeats a block, always stays inside the file, and reports exhaustion exactly when all blocks have been produced.", "quantifier": "every number of blocks, every sequence of raw random values", "why_tests_cant": "Requires all sequences of random numbers.", "anchors": ["io_u.c:__get_next_rand_offset", "io_u.c:mark_random_map", "lib/axmap.c:axmap_next_free"]}
{"id": "C05", "title": "The LFSR generator is a permutation of the block range", "statement": "After lfsr_init(nums, seed, spin) succeeds, the next nums calls of lfsr_next all succeed and return every value of 0..nums-1 exactly once, and the following call reports exhaustion.", "quantifier": "every nums in 1..2^63-1, every seed accepted by init, every spin in 0..15", "why_tests_cant": "Up to 2^63 values and 61 tap polynomials; needs primitivity of every polynomial in the table.", "anchors": ["lib/lfsr.c:lfsr_init", "lib/lfsr.c:lfsr_next", "lib/lfsr.c:__lfsr_next", "lib/lfsr.c:prepare_spin"]}
{"id": "C06", "title": "Resetting the LFSR generator starts a fresh full pass", "statement": "For the configuration fio itself uses (spin 0) lfsr_reset with an accepted seed, issued after any number of lfsr_next calls, makes the generator again emit each of 0..nums-1 exactly once.", "quantifier": "every nums, every pair of accepted seeds, every number of calls before the reset", "why_tests_cant": "Depends on the hidden cycle counter left over from the earlier pass.", "anchors": ["lib/lfsr.c:lfsr_reset", "lib/lfsr.c:lfsr_next", "filesetup.c:init_rand_distribution"]}
{"id": "C07", "title": "The byte FIFO delivers the bytes put in, in order, and never overfills", "statement": "Any interleaving of fifo_put and fifo_get on a FIFO whose size is a power of two behaves as a bounded byte queue: put stores min(len, room) bytes, get returns the oldest min(len, stored) bytes in order, also when the 32-bit positions wrap around.", "quantifier": "every power-of-two size, every sequence of puts and gets with every length and content", "why_tests_cant": "Wrap-around of ring and of the 32-bit counters depends on arbitrarily long histories.", "anchors": ["fifo.c:fifo_put", "fifo.c:fifo_get", "fifo.h:fifo_room"]}
{"id": "C08", "title": "Requeued I/O units come back once each, first in first out", "statement": "Units pushed on the requeue ring are popped exactly once and in push order as long as no more than the depth the ring was created for are held; emptiness is reported exactly when nothing is held.", "quantifier": "every requested depth, every push/pop history holding at most that many units", "why_tests_cant": "Ring rounding and wrap-around for every depth and history.", "anchors": ["io_u_queue.c:io_u_rinit", "io_u_queue.h:io_u_rpush", "io_u_queue.h:io_u_rpop"]}
{"id": "C09", "title": "The free list never hands out the same I/O unit twice", "statement": "With the free list filled with distinct units, no sequence of pop (take a unit) and push (return a taken unit) ever has a unit both on the list and taken or taken twice, and pop fails only if all units are taken.", "quantifier": "every queue depth, every pop/push history", "why_tests_cant": "Needs all histories.", "anchors": ["io_u_queue.h:io_u_qpop", "io_u_queue.h:io_u_qpush", "io_u_queue.c:io_u_qinit"]}
{"id": "C10", "title": "Skewed distributions never leave the block range and always deliver a block", "statement": "zipf_next, pareto_next and gauss_next return a block number below nranges, for every generator output and with hashing on or off; gauss_next terminates.", "quantifier": "every nranges>=1, every generator state and outputs, every offset and deviation", "why_tests_cant": "Out-of-range or non-terminating draws need rare generator outputs.", "anchors": ["lib/zipf.c:zipf_next", "lib/zipf.c:pareto_next", "lib/gauss.c:gauss_next"]}
{"id": "C11", "title": "Seeding the random generators never produces a dead component", "statement": "Each component of the Tausworthe generators stays away from its absorbing zero state forever, for every seed passed to init_rand_seed.", "quantifier": "every 32-bit and 64-bit seed, every number of draws", "why_tests_cant": "2^64 seeds and unbounded draws.", "anchors": ["lib/rand.c:__seed", "lib/rand.c:__init_rand32", "lib/rand.c:__init_rand64", "lib/rand.h:__rand32", "lib/rand.h:__rand64"]}
{"id": "C12", "title": "rand_between stays between its bounds", "statement": "rand_between(start,end) returns a value v with start <= v <= end.", "quantifier": "every generator output and every start <= end", "why_tests_cant": "The extreme generator outputs have probability 2^-32 or 2^-53.", "anchors": ["lib/rand.h:rand_between", "lib/rand.h:rand32_upto", "lib/rand.h:rand64_upto"]}
{"id": "C13", "title": "Latency buckets have bounded relative error and preserve order", "statement": "Recording a latency v and reading back the representative value of its bucket gives v exactly for small v, and otherwise a value within v/128 of v for every v the table can hold; larger latencies land in larger-or-equal buckets; the bucket index is always inside the table.", "quantifier": "every 64-bit latency", "why_tests_cant": "2^64 values.", "anchors": ["stat.c:plat_val_to_idx", "stat.c:plat_idx_to_val", "stat.h:FIO_IO_U_PLAT_NR"]}
{"id": "C14", "title": "Reported percentiles are the order statistics of the recorded samples", "statement": "For a non-empty histogram the value reported for percentile p is the representative of the first bucket at which at least p percent of the samples are accumulated; the reported values are non-decreasing in p and the reported min and max bracket them.", "quantifier": "every histogram, every percentile list in (0,100]", "why_tests_cant": "All histograms.", "anchors": ["stat.c:calc_clat_percentiles"]}
{"id": "C15", "title": "Merging per-thread statistics equals statistics of the pooled samples", "statement": "Combining running statistics (count, min, max, mean, sum of squared deviations) of several threads in any grouping or order gives exactly the statistics of all samples pooled (over exact arithmetic).", "quantifier": "every partition of every sample sequence into threads, every merge order", "why_tests_cant": "All sample sequences and groupings.", "anchors": ["stat.c:add_stat_sample", "stat.c:sum_stat"]}
{"id": "C16", "title": "Live shared-memory allocations never overlap and stay inside their pool", "statement": "After any sequence of smalloc and sfree calls, any two live allocations occupy disjoint byte ranges, every allocation lies inside the pool, has room for its header, the requested bytes and the guard word, and is zero filled.", "quantifier": "every pool size, every allocation/free history", "why_tests_cant": "All histories of sizes and frees.", "anchors": ["smalloc.c:__smalloc_pool", "smalloc.c:sfree_pool", "smalloc.c:blocks_iter", "smalloc.c:smalloc_pool"]}
{"id": "C17", "title": "Freeing returns exactly the blocks allocated; the free count is exact", "statement": "At every point the pool's free block count equals the number of blocks not belonging to a live allocation, and freeing everything restores the initial state of the block map.", "quantifier": "every allocation/free history", "why_tests_cant": "All histories.", "anchors": ["smalloc.c:sfree_pool", "smalloc.c:__smalloc_pool"]}
{"id": "C18", "title": "The verify history holds exactly the newest data for every byte written", "statement": "After any sequence of logged writes with possible overlap, the recorded pieces are pairwise disjoint, sorted, and a piece is present if and only if no later logged write overlaps it.", "quantifier": "every sequence of (file, offset, length) writes", "why_tests_cant": "All overlap patterns.", "anchors": ["iolog.c:log_io_piece"]}
{"id": "C19", "title": "A block written by fio verifies, and a damaged header is rejected", "statement": "A verify header produced for a block is accepted when re-read for the same block; changing the magic, version, length, offset, seed or sequence number fields it checks, or any single bit of the header covered by its checksum, makes verification fail.", "quantifier": "every header content, every interval number, every single-bit corruption", "why_tests_cant": "All header contents and corruptions.", "anchors": ["verify.c:__fill_hdr", "verify.c:verify_header", "crc/crc32c.c:crc32c_sw"]}
{"id": "C20", "title": "CRC checksums detect every single-bit error and are computed correctly by table", "statement": "The table-driven CRC routines equal bit-by-bit polynomial division, and two buffers of equal length differing in exactly one bit (or within one burst no wider than the CRC) have different checksums.", "quantifier": "every buffer of every length, every error position", "why_tests_cant": "All buffers and positions.", "anchors": ["crc/crc32c.c", "crc/crc32.c", "crc/crc16.c", "crc/crc7.c", "crc/crc64.c", "crc/crct10dif_common.c"]}
{"id": "C21", "title": "Pattern fill and pattern check agree", "statement": "A buffer filled with a pattern is accepted by the pattern check at the same phase, byte i of the buffer is pattern byte i mod n, and a buffer that differs in any byte is rejected.", "quantifier": "every pattern, pattern length, buffer length and phase", "why_tests_cant": "All lengths and phases, including partial tail copies.", "anchors": ["lib/pattern.c:cpy_pattern", "lib/pattern.c:cmp_pattern", "verify.c:check_pattern"]}
{"id": "C22", "title": "Human-readable numbers denote the number within one unit of the last digit", "statement": "num2str prints decimal digits and a unit prefix whose denoted value differs from the number by at most one unit in the last printed digit and uses at most maxlen digit positions.", "quantifier": "every 64-bit number, maxlen, base and unit system", "why_tests_cant": "All numbers.", "anchors": ["lib/num2str.c:num2str"]}
{"id": "C23", "title": "The bloom filter has no false negatives", "statement": "Once data has been inserted every later query for the same data answers present, whatever else is inserted.", "quantifier": "every filter size, every insertion history", "why_tests_cant": "All histories.", "anchors": ["lib/bloom.c:__bloom_check"]}
{"id": "C24", "title": "The red-black tree keeps sorted order and balance", "statement": "Any sequence of insertions and erasures keeps the in-order sequence equal to the sorted multiset of live keys, no red node has a red child and all root-to-leaf paths have the same number of black nodes; first/next enumerate it in order.", "quantifier": "every insert/erase history", "why_tests_cant": "All histories; rebalancing cases are rare.", "anchors": ["lib/rbtree.c:rb_insert_color", "lib/rbtree.c:rb_erase", "lib/rbtree.c:rb_first", "lib/rbtree.c:rb_next"]}
{"id": "C25", "title": "Every generated I/O lies inside the file region", "statement": "When fio generates the next I/O for a file, a successful result satisfies offset + length <= file size, start offset <= offset, and length lies between the configured minimum and maximum block size (before trimming by the random map).", "quantifier": "every configuration of sizes, block size ranges and splits, every random draw", "why_tests_cant": "All configurations and draws.", "anchors": ["io_u.c:get_next_offset", "io_u.c:get_next_buflen", "io_u.c:fill_io_u"]}
{"id": "C26", "title": "After a crash the verifier stops at or skips every write that was not known complete", "statement": "With a saved verify state, the verifier never checks a write whose sequence number was in flight or beyond the recorded limit when the state was saved, never checks a failed write, and does check every other write before the stopping point.", "quantifier": "every saved state (in-flight set, failed set, limit), every sequence number", "why_tests_cant": "All crash points.", "anchors": ["verify.c:get_all_io_list", "verify.c:verify_assign_state", "verify.c:verify_state_should_stop", "verify.c:verify_state_should_skip"]}
{"id": "C27", "title": "A saved verify state survives the file round trip and corruption is refused", "statement": "Loading a state file written by fio yields the same state; a file whose version differs or whose body was altered in one bit is refused.", "quantifier": "every state, every single bit alteration of the body", "why_tests_cant": "All states.", "anchors": ["verify.c:write_thread_list_state", "verify.c:verify_load_state", "verify.c:verify_state_hdr"]}
{"id": "C28", "title": "The zoned write-target limit is never exceeded", "statement": "After any sequence of obtaining and releasing write target zones, by any jobs, the number of zones marked as write targets equals the recorded count, has no duplicates and never exceeds max_open_zones, nor does a job exceed job_max_open_zones.", "quantifier": "every zone count, limit, and interleaving of get/put operations by jobs", "why_tests_cant": "All interleavings.", "anchors": ["zbd.c:__zbd_write_zone_get", "zbd.c:zbd_write_zone_put", "zbd.c:zbd_reset_zone"]}
{"id": "C29", "title": "Steady-state sums equal the regression over the current window", "statement": "At every check the running sums used for the slope and mean equal the sums recomputed from the most recent window of samples, in time order.", "quantifier": "every window length, every sample sequence", "why_tests_cant": "All sequences; the incremental update and ring indices only matter after wrap-around.", "anchors": ["steadystate.c:steadystate_slope", "steadystate.c:steadystate_deviation"]}
{"id": "C30", "title": "Flow groups keep their jobs in proportion and clean up", "statement": "A job in a flow group is admitted only while its share of the group's operations is at most its weight share, and when all jobs have left the group its counter is back to its initial value and the group is removed.", "quantifier": "every set of jobs and weights, every interleaving", "why_tests_cant": "All interleavings.", "anchors": ["flow.c:flow_threshold_exceeded", "flow.c:flow_put", "flow.c:flow_get"]}
{"id": "C31", "title": "File locks are exclusive per name and lock records are never lost", "statement": "Through any interleaving of lock, trylock and unlock, at most one holder has the lock of a file name, records are either free or in use, never both, and all records are free again when all locks are released.", "quantifier": "every interleaving of threads", "why_tests_cant": "All interleavings.", "anchors": ["filelock.c:__fio_lock_file", "filelock.c:fio_unlock_file"]}
{"id": "C32", "title": "Sorting a list is stable and a permutation", "statement": "flist_sort returns a permutation of its input in non-decreasing order, keeping equal elements in their original order.", "quantifier": "every list and every total preorder comparison", "why_tests_cant": "All lists.", "anchors": ["lib/flist_sort.c:flist_sort"]}
{"id": "C33", "title": "A block with verify headers verifies when read back, and a flipped bit anywhere is detected", "statement": "For every verify type, interval and header offset the options allow, a block written by fill_pattern_headers and read back unchanged passes verify_io_u. With a CRC or pattern verify type, inverting any single bit of the block makes verify_io_u fail.", "quantifier": "every block content, block length, verify type, interval, verify_offset, every single-bit corruption, every hash function for the non-CRC types", "why_tests_cant": "All contents and corruptions; the interplay of intervals, moved headers and error codes.", "anchors": ["verify.c:populate_hdr", "verify.c:fill_pattern_headers", "verify.c:verify_io_u", "verify.c:memswp", "verify.c:get_hdr_inc"]}
{"id": "C34", "title": "A history record is never used after it was freed", "statement": "Through any interleaving of logged writes, completions, failed writes, records taken for verification and records taken for trimming, no io_piece is read, unlinked or freed after it was freed.", "quantifier": "every sequence of operations on the verify history", "why_tests_cant": "Needs a failing write whose record waits for trimming, or trimming that overtakes a write in flight.", "anchors": ["iolog.c:log_io_piece", "iolog.c:unlog_io_piece", "io_u.c:io_completed", "trim.c:get_next_trim", "verify.c:get_next_verify"]}
{"id": "C35", "title": "The count of valid data in zones is exact", "statement": "With zone_reset_threshold, after any sequence of writes, zone resets, zone finishes and releases by any jobs, wp_valid_data_bytes equals the sum over the sequential zones in the write range of the distance from zone start to write pointer.", "quantifier": "every sequence of zone operations by any jobs, every zone layout", "why_tests_cant": "Needs a zone finish or a mix of jobs followed by a reset; the count is not shown anywhere.", "anchors": ["zbd.c:zbd_queue_io", "zbd.c:__zbd_reset_zone", "zbd.c:zbd_finish_zone", "zbd.c:zbd_verify_and_set_vdb"]}
{"id": "C36", "title": "Accepted zoned I/O obeys the rules of the zones", "statement": "In zonemode=zbd every write accepted for a sequential zone starts at the write pointer and ends inside the zone capacity and the job range, every accepted read covers only written data of one zone, writes to conventional zones do not reach into sequential ones, lengths are positive multiples of the minimum block size, and no assertion fails.", "quantifier": "every zone layout and state, offset, length, block size and every zone chosen by the search", "why_tests_cant": "All layouts and states; rare boundary combinations of capacity, block size and zone types.", "anchors": ["zbd.c:zbd_adjust_block", "zbd.c:zbd_find_zone", "zbd.c:zbd_offset_to_zone_idx", "zbd.c:zbd_zone_full"]}
{"id": "C37", "title": "A command sent between client and server arrives intact, and damage is refused", "statement": "A command sent by fio_net_send_cmd, fio_send_cmd_ext_pdu or a chain of send_vec_entry is delivered by fio_net_recv_cmd with the same opcode, tag and payload, and the bytes of the next command are left alone, however the socket splits the data. A single flipped bit, or a change within 16 consecutive bits of the checksummed part of a header or of a payload, is never delivered as a command. The receiver writes only inside its buffers.", "quantifier": "every opcode, tag, payload of any number of fragments, every splitting of writes and reads, every single-bit and 16-bit-burst corruption", "why_tests_cant": "Needs short writes and reads at every position of every fragment and all corruptions; loopback sockets rarely split.", "anchors": ["server.c:fio_net_send_cmd", "server.c:fio_send_cmd_ext_pdu", "server.c:send_vec_entry", "server.c:fio_net_recv_cmd", "server.c:fio_sendv_data", "server.c:fio_recv_data", "server.c:verify_convert_cmd"]}
{"id": "C38", "title": "With serialize_overlap no two overlapping I/Os are in flight", "statement": "Through any interleaving of the workers and main threads of any jobs with serialize_overlap in offload mode, and through any sequence of submissions of a job without offload, no two reads, writes or trims that the engines work on at the same time have a byte in common; a submission that conflicts with nothing goes ahead, and fio does not abort.", "quantifier": "every number of jobs, workers and io_us, every offset and length, every interleaving", "why_tests_cant": "All interleavings; needs overlapping I/Os meeting inside the check.", "anchors": ["backend.c:in_flight_overlap", "backend.c:io_u_submit", "rate-submit.c:check_overlap", "rate-submit.c:io_workqueue_fn", "ioengines.c:td_io_queue"]}
{"id": "C39", "title": "The work queue handles every item exactly once and flush waits for all", "statement": "In every execution of workqueue_init, any calls of workqueue_enqueue and workqueue_flush, and workqueue_exit with any number of workers: each worker handles exactly the items given to it, in order and one at a time; when workqueue_flush or workqueue_exit returns, all items enqueued so far were handled; no execution deadlocks or loses a wakeup, and every execution ends; items go to an idle worker if there is one and otherwise to the worker whose last item is oldest; no assertion fails.", "quantifier": "every number of workers, every program of the caller, every interleaving, every choice of callbacks and spurious wakeups", "why_tests_cant": "Lost wakeups and races between SW_F_IDLE and flush need particular interleavings.", "anchors": ["workqueue.c:worker_thread", "workqueue.c:workqueue_enqueue", "workqueue.c:workqueue_flush", "workqueue.c:workqueue_exit", "workqueue.c:workqueue_init", "workqueue.c:get_submit_worker"]}
{"id": "C40", "title": "The CPU clock measures time", "statement": "After calibrate_cpu_clock with any rate, the difference of two readings of fio's CPU clock is the time that e cycles take at that rate: at most one nanosecond too long, and too short by at most one nanosecond in 2^22 cycles, one in half an hour, and four. Time never goes backwards, the counter may wrap, no intermediate product overflows and there is no jump between periods; the calibration itself divides by no zero.", "quantifier": "every rate up to 900 THz, every start value of the counter, every pair of readings within 146 years", "why_tests_cant": "Overflow and discontinuities show up after hours, at particular rates, or when the counter wraps.", "anchors": ["gettime.c:calibrate_cpu_clock", "gettime.c:__fio_gettime", "gettime.c:get_cycles_per_msec"]}
{"id": "C41", "title": "Elapsed times, sleeps and timers are exact", "statement": "ntime_since, utime_since, mtime_since, mtime_since_now and rel_time_since give the time between two instants rounded down to their unit (0 if time goes backwards); timespec_add_msec moves an instant by exactly that many milliseconds; usec_sleep reports the time slept, which is at least the time asked for unless it is told to stop, and never asks nanosleep for more than is left; an interval timer fires when it is due and next expires one interval later, within the accuracy.", "quantifier": "every pair of instants within 272 years, every sleep time and granularity, every sequence of clock readings, every interval", "why_tests_cant": "Carries between seconds and nanoseconds; signs; integer widths.", "anchors": ["gettime.c:ntime_since", "gettime.c:utime_since", "gettime.c:rel_time_since", "time.c:timespec_add_msec", "time.c:usec_sleep", "helper_thread.c:eval_timer"]}
{"id": "C42", "title": "The ramp period ends when it should, once", "statement": "A job with ramp_time is in its ramp period until that time has passed since it started; a job with ramp_size until it, or with group_reporting its whole group, has done that many bytes; a job with neither has none. The statistics of a job are reset exactly when its ramp period ends, never twice, and a job whose ramp period is over stays that way.", "quantifier": "every set of jobs, groups and options, every order of starts, I/O and looks at the clock", "why_tests_cant": "Depends on when the helper thread runs relative to the start of a job, and on combinations of jobs in a group.", "anchors": ["time.c:ramp_period_check", "time.c:ramp_period_over", "time.c:td_ramp_period_init"]}
{"id": "C43", "title": "A number in a job file means what the documentation says", "statement": "A decimal number with a documented suffix, in small or capital letters, is its value times that unit: powers of 1000 or 1024 bytes depending on kb_base, or microseconds for times. n% is stored so that it can be recognised and recovered, 0x introduces a hexadecimal number, and a string that is not a number or does not fit 64 bits is refused.", "quantifier": "every string of digits, every documented suffix in any case, both values of kb_base, every state of errno", "why_tests_cant": "Tests try a few well formed values; they never compare all suffixes with the manual or try products near the limits.", "anchors": ["parse.c:str_to_decimal", "parse.c:get_mult_bytes", "parse.c:__get_mult_bytes", "parse.c:get_mult_time", "parse.h:parse_is_percent"]}
{"id": "C44", "title": "Lists of values go to reads, writes and trims as documented", "statement": "A list a,b,c of an option sets the values for reads, writes and trims in that order: a value that is left out leaves the default alone, and the last value applies to everything after it; an option with a lower and an upper value gets the first and the last one; ranges are stored with the smaller number first.", "quantifier": "every list of any length with any values left out, every separator, every limit of the option", "why_tests_cant": "The number of combinations of missing values, separators, option types and limits.", "anchors": ["parse.c:handle_option", "parse.c:__handle_option", "parse.c:val_too_large", "parse.c:val_too_small"]}
{"id": "C45", "title": "The JSON output is valid JSON and means what was added", "statement": "Whatever tree of objects, arrays, strings, integers and doubles is built with the functions of json.h, the text json_print_object produces is a JSON text by RFC 8259, and reading it back gives the same members and elements in the same order, the same strings and integers, and doubles to six decimal places.", "quantifier": "every tree of any depth and size, every string, every integer and double", "why_tests_cant": "Tests parse the output of runs with harmless names and values; strings with unusual characters, NaN values and deep nesting do not occur.", "anchors": ["json.c:strdup_escape", "json.c:json_print_object", "json.c:json_print_array", "json.c:json_print_value", "json.c:json_print_pair"]}
{"id": "C46", "title": "The output buffer holds what was put in", "statement": "After any sequence of buf_output_add on a fresh buffer, all writes were inside the allocation, the first buflen bytes are the pieces one after the other and the rest is zero; it grows only when a piece does not fit, by at least 1024 bytes.", "quantifier": "every number of pieces of every length", "why_tests_cant": "Off-by-one errors at the growth boundary corrupt memory silently.", "anchors": ["lib/output_buffer.c:buf_output_add", "lib/output_buffer.c:buf_output_init"]}
{"id": "C47", "title": "The cryptographic hashes used for data verification are the standard ones", "statement": "For every message, given to init/update/final in any pieces, fio's md5, sha1, sha256, sha512 and sha3-224/256/384/512 give the digest of RFC 1321, FIPS 180 or FIPS 202, whatever the buffers held before; no access is outside a buffer.", "quantifier": "every message, every way to split it, every initial contents of the context's buffer", "why_tests_cant": "Test vectors reach a handful of lengths; the padding, the block boundary cases and the bit counters have separate code paths for every residue of the length and for sizes no test feeds", "anchors": ["crc/md5.c:22-146", "crc/sha1.c:30-216", "crc/sha256.c:27-292", "crc/sha512.c:24-254", "crc/sha3.c:24-172"]}
{"id": "C48", "title": "No I/O unit is lost or used twice", "statement": "In every run of do_io and do_verify, whatever the engine and the job's generators answer, no assertion on io_u flags, the free list or the requeue ring fails; each of the iodepth units is in exactly one place (free list, requeue ring, engine, verification threads, or the main thread's hands), its flags say so, cur_depth is the number of units with the engine or the main thread, and between phases the main thread holds none.", "quantifier": "every iodepth, every sequence of phases and turns, every answer of the engine (completed, queued, busy, short, error, order and number of events) and of the generators", "why_tests_cant": "The states are combinations of queue depth, batches, requeues, errors and asynchronous verification; tests see a few of them and a lost unit only shows as a slowly shrinking depth.", "anchors": ["io_u.c:put_io_u", "io_u.c:requeue_io_u", "io_u.c:__get_io_u", "io_u.c:io_completed", "ioengines.c:td_io_queue", "ioengines.c:td_io_getevents", "backend.c:io_queue_event", "backend.c:do_io", "backend.c:do_verify", "backend.c:fio_io_sync", "verify.c:verify_io_u_async"]}
{"id": "C49", "title": "Waiting for I/O in flight ends, and then nothing is in flight", "statement": "io_u_in_flight and io_u_queued together always count the units with the engine; io_u_quiesce returns if the engine keeps delivering events, and when it returns the engine has no unit; after its loop do_io waits for every unit the engine has.", "quantifier": "every reachable state, every batch size and completion limit, every order of events", "why_tests_cant": "A hang needs a particular relation of iodepth, batch sizes and think time; tests with a time limit only see that a job stops making progress.", "anchors": ["io_u.c:io_u_quiesce", "ioengines.c:td_io_commit", "ioengines.c:td_io_getevents", "io_u.c:io_u_queued_complete", "backend.c:do_io"]}
{"id": "C50", "title": "A transfer in parts is continued where it ended and counted once", "statement": "When the engine transfers only part of a unit, the rest is issued again before new I/O, at the file offset and buffer position where the part ended, until the whole buffer is transferred; the unit keeps what it was issued for, and all its bytes and one I/O are counted.", "quantifier": "every number and size of parts, every engine kind, every point of the run", "why_tests_cant": "Short transfers hardly occur on the devices tests run on.", "anchors": ["io_u.c:io_completed", "backend.c:io_queue_event", "io_u.c:requeue_io_u", "io_u.c:__get_io_u"]}
{"id": "C51", "title": "Doubles arrive over the network unchanged", "statement": "Zero and every normal double that pack754 puts on the wire is the IEEE 754 binary64 encoding of the number, and unpack754 on the receiving machine gives exactly the same number back, whatever the formats of long double on the two machines.", "quantifier": "every double, every long double format that holds all doubles", "why_tests_cant": "There are 2^64 doubles and several long double formats; a test tries a handful of values on one machine.", "anchors": ["lib/ieee754.c:pack754", "lib/ieee754.c:unpack754", "lib/ieee754.h:fio_double_to_uint64"]}
{"id": "C52", "title": "Data buffers of I/O units lie inside the allocation and apart", "statement": "For every combination of block sizes, queue depth, alignment, page size and kind of memory, the buffer of every I/O unit, with the largest block size, lies inside the memory the system gave, no two buffers overlap, and with direct I/O or iomem_align the first buffer lies iomem_align bytes behind a page boundary, as do all others when the block size is a multiple of the page.", "quantifier": "all sizes, depths, alignments, memory types and base addresses", "why_tests_cant": "An overflow by a few bytes at one particular combination of base address, alignment and size usually stays unnoticed.", "anchors": ["backend.c:init_io_u_buffers", "memory.c:allocate_io_mem", "memory.c:alloc_mem_shm", "memory.c:alloc_mem_mmap", "fio.h:PTR_ALIGN"]}
{"id": "C53", "title": "Aligned allocation", "statement": "For every power-of-two alignment and every size, __fio_memalign returns an aligned pointer such that the object and the footer behind it lie inside the block, and __fio_memfree hands the allocator the pointer it gave, whatever was written into the object.", "quantifier": "all alignments, sizes, base addresses and contents", "why_tests_cant": "The footer is off by a few bytes only for particular base addresses.", "anchors": ["lib/memalign.c:__fio_memalign", "lib/memalign.c:__fio_memfree"]}
{"id": "C54", "title": "Zones of a random distribution get their share and keep to it", "statement": "A distribution zoned: or zoned_abs: that is accepted gives its zones access percentages that add up to exactly 100 and sizes of at most the whole file, as written in the option, with unset sizes sharing the rest; each of the numbers 1 to 100 selects one zone, each zone is selected by as many as its percentage, and an I/O for a number goes to a block of the zone it selects, zones having no block in common. A sequence goes through the listed blocks in order.", "quantifier": "every list of zones, every file size, every number drawn by every Tausworthe generator", "why_tests_cant": "Which zone an I/O falls into is random; a block outside its zone or a share off by one percent is within what a test tolerates.", "anchors": ["options.c:zone_split_ddir", "options.c:split_parse_ddir", "zone-dist.c:__td_zone_gen_index", "io_u.c:__get_next_rand_offset_zoned", "io_u.c:__get_next_rand_offset_zoned_abs", "io_u.c:__get_next_rand_offset_sequence"]}
{"id": "C55", "title": "A rate limit is kept", "statement": "A job with a limit in bytes per second never issues an I/O before the bytes it issued earlier are due by the limit, and does not wait longer than the limit asks for; a limit on the number of I/Os with several block sizes keeps its interval; a job with a minimal rate is ended exactly if a cycle had a lower rate.", "quantifier": "every run: any mix of directions, block sizes, requeued and busy I/Os, think time, verification, delays, end of the ramp period", "why_tests_cant": "Rates are measured with tolerance; an I/O a little too early, overflow at large totals and the interplay of two limited directions are not seen.", "anchors": ["backend.c:usec_for_io", "io_u.c:rate_ddir", "backend.c:handle_thinktime", "backend.c:__check_min_rate", "init.c:__setup_rate", "ioengines.c:td_io_queue"]}
{"id": "C56", "title": "No log entry is lost or written outside a buffer", "statement": "A log with an entry for each I/O has the entries of all I/Os in the order of completion; no buffer of the log overflows and no assertion on it fails, however the queue is filled and reaped while the buffers grow.", "quantifier": "every sequence of queueing, completion, waiting, quiescing and growth, every queue depth, batch size and log_entries, and every pattern of failing allocations", "why_tests_cant": "The buffers grow once in thousands of I/Os; what happens then depends on how many I/Os are in flight and how many are reaped before the flag is looked at.", "anchors": ["stat.c:get_cur_log", "stat.c:regrow_log", "stat.c:get_new_log", "stat.c:__add_log_sample", "iolog.c:setup_log", "iolog.c:flush_log", "backend.c:wait_for_completions", "io_u.c:io_u_quiesce"]}
{"id": "C57", "title": "Averaged logs account for every sample", "statement": "In a log with log_avg_msec every sample of a direction counts in exactly one entry; an entry is the mean (rounded to the nearest integer), the largest value or both of its samples; the samples of an entry are from one window of log_avg_msec and the first one after it, and a latency log has at most one entry for each window and direction before the end.", "quantifier": "every sequence of samples of any directions, values and times, every window length and log_max_value", "why_tests_cant": "A lost or doubled sample shifts an average by little.", "anchors": ["stat.c:add_log_sample", "stat.c:__add_stat_to_log", "stat.c:finalize_logs", "stat.c:add_stat_sample"]}
{"id": "C58", "title": "The search of latency_target finds the queue depth", "statement": "A job with latency_target keeps the queue depth between 1 and iodepth, never has more I/Os queued than that depth, lowers it after a window that missed the target and does not lower it after one that met it; on a device that meets the target up to some depth the search ends at exactly that depth, and the statistics are of that depth only; if the target is missed at depth 1 the job gives up.", "quantifier": "every sequence of windows that met or missed the target, every iodepth, every depth up to which the device meets the target", "why_tests_cant": "The search depends on the latencies of a device; that it never ends for one particular depth, or ends with mixed statistics, shows on few devices.", "anchors": ["io_u.c:__lat_target_failed", "io_u.c:lat_target_init", "io_u.c:lat_target_success", "io_u.c:lat_target_check", "io_u.c:queue_full"]}
{"id": "C59", "title": "Every completed I/O is processed exactly once", "statement": "However latencies fall, io_u_queued_complete processes every I/O that the engine reports exactly once and in order, and processing one I/O loses no other.", "quantifier": "every set of I/Os in flight, every batch size, every pattern of slow I/Os", "why_tests_cant": "Needs a slow I/O inside a batch of completions at the moment in which the search of latency_target is at depth 2 or more.", "anchors": ["io_u.c:ios_completed", "io_u.c:io_u_quiesce", "io_u.c:io_u_queued_complete", "io_u.c:__lat_target_failed", "engines/libaio.c:fio_libaio_getevents"]}
{"id": "C60", "title": "Semaphores count, exclude and wake", "statement": "A semaphore hands out as many tokens as it had and was given; used as a lock it is held by at most one thread at a time; no wake-up is lost: whenever a token is there and a thread waits that has not timed out, some thread can run and takes it; a call that finds a token does not wait; a timed call that reports a timeout has taken nothing.", "quantifier": "every number of threads and every interleaving of down, timed down, trylock and up, with any choice of the thread woken, spurious wake-ups and timeouts at any time", "why_tests_cant": "Interleavings in which a lock is stolen between the signal and the wake-up, or a wait expires at that moment, cannot be forced in a test.", "anchors": ["fio_sem.c:fio_sem_down", "fio_sem.c:fio_sem_down_timeout", "fio_sem.c:fio_sem_down_trylock", "fio_sem.c:fio_sem_up"]}
{"id": "C61", "title": "Asking a running job for its resource usage ends", "statement": "The thread that prints statistics of running jobs never waits for ever for a job that ends meanwhile, and what it gets was updated after it asked.", "quantifier": "every interleaving of the statistics thread, which asks any number of times, with the job, which checks at any times and ends at any time", "why_tests_cant": "The job has to end between two instructions of the statistics thread.", "anchors": ["stat.c:__show_running_run_stats", "backend.c:check_update_rusage", "backend.c:thread_main"]}
{"id": "C62", "title": "verify=xxhash computes xxHash and detects damage to a word", "statement": "XXH32 and the XXH32 functions for data in parts compute the xxHash of the whole data, however it is cut into parts; data damaged in any way within one aligned word of four bytes, or in one byte, has another hash.", "quantifier": "every data of any length, every seed, every way to cut it into parts, every damage to one word", "why_tests_cant": "Test vectors cover a few lengths and cuts; a change that keeps the hash cannot be searched for.", "anchors": ["crc/xxhash.c:XXH32", "crc/xxhash.c:XXH32_resetState", "crc/xxhash.c:XXH32_update_endian", "crc/xxhash.c:XXH32_intermediateDigest_endian", "verify.c:verify_io_u_xxhash"]}
{"id": "C63", "title": "A file is open as long as an I/O uses it, and no longer", "statement": "A file is not closed while an I/O unit belongs to it, and is closed as soon as it is to be closed and none does; the number of open files is right and not more than openfiles; no assertion about references fails.", "quantifier": "every number of files, limit, kind of service, sequence of I/Os, completions, verifications, restarts and replayed opens and closes, and every failure to open", "why_tests_cant": "Needs files that end while I/O is in flight, opens that fail half way, and logs with odd sequences of opens and closes.", "anchors": ["filesetup.c:get_file", "filesetup.c:put_file", "filesetup.c:close_files", "ioengines.c:td_io_open_file", "ioengines.c:td_io_close_file", "io_u.c:set_io_u_file", "verify.c:get_next_verify", "iolog.c:ipo_special"]}
{"id": "C64", "title": "Every file is served, in the right order", "statement": "Every file gets the I/Os it is good for before the job ends; round robin serves file_service_nr I/Os of each file in turn; sequential service finishes a file before the next one; the choice of a file ends, and a job with openfiles goes on.", "quantifier": "every number of files, number of I/Os of each file, limit for open files and sequence of completions", "why_tests_cant": "Depends on the limit for open files, the I/Os in flight when a file ends, and files opened for verification.", "anchors": ["io_u.c:get_next_file_rr", "io_u.c:get_next_file_rand", "io_u.c:__get_next_file", "io_u.c:set_io_u_file"]}
{"id": "C65", "title": "Jobs start in the order that stonewall and wait_for ask for", "statement": "A job with stonewall is started only when all jobs before it in the job file are over, and no job behind it is started before it; a job with wait_for is started only when the jobs of that name are over.", "quantifier": "every list of up to 4096 jobs, threads or processes, every interleaving of the main thread with jobs that get ready, end, are killed or terminated, and with the clock", "why_tests_cant": "Depends on when jobs end relative to the passes of the main thread and on start_delay.", "anchors": ["backend.c:run_threads", "backend.c:reap_threads", "backend.c:waitee_running"]}
{"id": "C66", "title": "Every job is run and reaped once, and fio ends", "statement": "When fio is done every job has been started once, is over and has been reaped once; fio waits for nothing but the end of running jobs; its counters of jobs to start, started and running do not wrap around.", "quantifier": "every list of up to 4096 jobs and every interleaving of the main thread with the jobs, the clock, and whoever terminates or kills jobs", "why_tests_cant": "Needs jobs terminated before they were created, jobs that hang, and names used twice.", "anchors": ["backend.c:run_threads", "backend.c:reap_threads", "libfio.c:fio_terminate_threads", "init.c:wait_for_ok"]}
{"id": "C67", "title": "Jobs that only burn CPU time end with the others", "statement": "When all jobs that do I/O are over, the jobs with the engine cpuio are terminated; no job that does I/O is terminated on their account.", "quantifier": "every list of up to 4096 jobs and every interleaving", "why_tests_cant": "Depends on which jobs end first, and on threads versus processes.", "anchors": ["backend.c:reap_threads"]}
{"id": "C68", "title": "Each file of a job has the region and the size the options ask for", "statement": "When the files of a job are set up, each has the offset given by offset and offset_increment, and the size given by size (divided among the files), filesize, a percentage, or the file as it is; regular files are extended so that the region lies inside, and not more; the size of the job is the sum.", "quantifier": "every number of files, all sizes, offsets, percentages, existing sizes, random sizes and repetitions of the options", "why_tests_cant": "Errors need offsets beyond the end, sizes that wrap around, or settings given twice.", "anchors": ["filesetup.c:setup_files", "filesetup.c:get_start_offset", "filesetup.c:get_rand_file_size", "options.c:str_size_cb"]}
{"id": "C69", "title": "Clones of a job work on separate regions", "statement": "With offset_increment at least as large as the region, no byte of a file is in the regions of two clones of a job (numjobs).", "quantifier": "every two clones, every file, offsets and increments in bytes or percent", "why_tests_cant": "Overlaps show in rounding only.", "anchors": ["filesetup.c:get_start_offset", "filesetup.c:setup_files"]}
{"id": "C70", "title": "A file laid out has exactly the size asked for and was written throughout", "statement": "If laying out a file (not with fill_device) succeeds and was not terminated, the file has exactly the size asked for, all of it was written, whatever short writes there were; it never gets larger; there are at most as many writes as bytes; it succeeds if each write writes something.", "quantifier": "every size, block size and sequence of results of write", "why_tests_cant": "Short writes at every place.", "anchors": ["filesetup.c:extend_file"]}
{"id": "C71", "title": "A job does as much I/O as asked for", "statement": "A job without errors that is over has transferred io_size, or size if that is not given, times the number of loops: not less, and less than one block more; not more than number_ios I/Os in each loop; and it ends.", "quantifier": "every size, io_size, number of loops and block sizes, every sequence of I/Os delivered, engines that complete at once or later", "why_tests_cant": "Depends on where block sizes end relative to the limits, and on the combination of options.", "anchors": ["backend.c:do_io", "backend.c:keep_running", "backend.c:io_bytes_exceeded", "backend.c:exceeds_number_ios"]}
{"id": "C72", "title": "Protection information of NVMe blocks", "statement": "A write puts into every block the guard (CRC of the data and of the metadata before the protection information), the application tag and the address, as far as asked for, and changes nothing else; what was written passes the check on reading; the check fails for damaged data within as many bits in a row as the guard has, for a damaged guard or tag, and for a block read at another address, unless the tags disable checking.", "quantifier": "every format (extended or separate metadata, 16 or 64 bit guards, protection information first or last, types 1 to 3), every address, number of blocks and contents of the buffers", "why_tests_cant": "Needs a device formatted with protection information; damage and misplaced blocks do not occur in tests.", "anchors": ["engines/nvme.c:fio_nvme_generate_pi_16b_guard", "engines/nvme.c:fio_nvme_generate_pi_64b_guard", "engines/nvme.c:fio_nvme_verify_pi_16b_guard", "engines/nvme.c:fio_nvme_verify_pi_64b_guard", "engines/nvme.c:fio_nvme_generate_guard", "engines/nvme.c:fio_nvme_pi_verify", "engines/nvme.c:fio_nvme_get_info"]}
{"id": "C73", "title": "NVMe commands address the blocks of the I/O", "statement": "The command built for an I/O names exactly its blocks, with the directive and control bits asked for, the right payload and metadata length; a deallocation names exactly the ranges of the trim; the expected tags in the command are those of the blocks; resetting or finishing zones names the first block of each zone.", "quantifier": "every device geometry, offset, length, set of ranges, options", "why_tests_cant": "Wrong block counts in the command only occur with very large blocks or unusual formats, and need a device to be seen.", "anchors": ["engines/nvme.c:fio_nvme_uring_cmd_prep", "engines/nvme.c:fio_nvme_uring_cmd_trim_prep", "engines/nvme.c:fio_nvme_pi_fill", "engines/nvme.c:fio_nvme_reset_wp", "engines/nvme.c:fio_nvme_finish_zone", "engines/nvme.h:get_slba", "engines/nvme.h:get_nlb"]}
{"id": "C74", "title": "A recorded log of I/O is replayed", "statement": "A log written with write_iolog is read back with read_iolog completely: the same files, the same I/Os with direction, file, offset, length and the pauses between them, in order; options that skip directions, scale or align offsets or redirect the files have the effect documented; the buffers are large enough for every I/O; the replay hands out exactly these I/Os.", "quantifier": "every set of files, every sequence of logged entries, every option, whatever uninitialised variables hold, every order of completion", "why_tests_cant": "Names, numbers and sequences that break the text format or the state of the files do not occur in a test log; the values of uninitialised variables vary.", "anchors": ["iolog.c:log_io_u", "iolog.c:log_file", "iolog.c:init_iolog_write", "iolog.c:init_iolog_read", "iolog.c:read_iolog", "iolog.c:delay_since_ttime", "iolog.c:read_iolog_get", "iolog.c:ipo_special", "iolog.h:ipo_bytes_align", "filesetup.c:get_fileno"]}
{"id": "C75", "title": "A log read in chunks is replayed to its end", "statement": "With read_iolog_chunked the pieces handed out are those of the log in their order and all of them are handed out before the job is done.", "quantifier": "every log fio writes and every time measured between the reads", "why_tests_cant": "Whether the end is reached depends on how fast the device is.", "anchors": ["iolog.c:iolog_items_to_fetch", "iolog.c:read_iolog", "iolog.c:read_iolog_get"]}
{"id": "C76", "title": "Block sizes come in the shares the option asks for", "statement": "With bssplit, the part of the I/Os that have a given size is the percentage the option gives to it, entries without a percentage sharing equally what is left; with a range of block sizes, all multiples of the smallest are equally likely.", "quantifier": "every option, every place in a file, all random numbers", "why_tests_cant": "Shares of 2^32 or 2^64 random numbers cannot be counted by running a job.", "anchors": ["options.c:split_parse_ddir", "options.c:bssplit_ddir", "options.c:bs_cmp", "io_u.c:get_next_buflen"]}
{"id": "C77", "title": "Syncs come after every N writes and reads and writes keep their mix", "statement": "With fsync=N (fdatasync, sync_file_range) there is exactly one sync directly after each N-th write and no other; in a mixed job each I/O has the direction that was drawn with the percentages given, or the direction that is behind its percentage.", "quantifier": "every sequence of engine answers (busy, short, done), random numbers, rate decisions and directions", "why_tests_cant": "A sync that is missing after one of many writes shows in no result.", "anchors": ["io_u.c:get_rw_ddir", "io_u.c:set_rw_ddir", "io_u.c:set_rwmix_bytes", "io_u.c:get_rand_ddir", "ioengines.c:td_io_queue", "io_u.c:requeue_io_u", "io_u.c:check_get_verify", "fio.h:should_fsync"]}
{"id": "C78", "title": "Write buffers have the compressibility and the duplicates asked for", "statement": "With buffer_compress_percentage each piece of a written buffer has that percentage of bytes that are zero or the pattern and the others random; with dedupe_percentage that percentage of the buffers has the same content as another one, of the neighbouring buffer or of a page of the working set, and buffers made from different seeds differ.", "quantifier": "every seed, block size, chunk size, pattern, working set and sequence of random numbers", "why_tests_cant": "The content of gigabytes of random data is never compared by a test.", "anchors": ["io_u.c:fill_io_buffer", "io_u.c:get_buf_state", "io_u.c:save_buf_state", "lib/rand.c:__fill_random_buf_percentage", "lib/rand.c:__fill_random_buf", "dedupe.c:init_dedupe_working_set_seeds"]}
{"id": "C79", "title": "The sync engine transfers every unit at its offset", "statement": "A read or write done by the sync engine (lseek, then read or write, the lseek left out when the position is believed to be right) moves bytes from or to the offset of its unit, whatever the job did before; a transfer done in parts covers the unit from start to end; the psync engine the same.", "quantifier": "every sequence of units, offsets, files, results of the kernel, dropped units and reopened files", "why_tests_cant": "A stale file position shows only if a later unit starts exactly where an earlier one ended; tests check throughput, not the place.", "anchors": ["engines/sync.c:fio_syncio_prep", "engines/sync.c:fio_syncio_queue", "engines/sync.c:fio_io_end", "engines/sync.c:fio_psyncio_queue", "filesetup.c:generic_close_file", "backend.c:io_queue_event"]}
{"id": "C80", "title": "The vsync engine hands every unit back once, with the bytes moved at their own place", "statement": "Units gathered into one readv or writev are adjacent, of one file and direction; each unit is handed back exactly once, reports exactly the bytes moved between its buffer and its place in the file, and no byte is moved that no unit reports; a trim is not a write; the job ends.", "quantifier": "every list of units, depth, batch, low water mark and sequence of (short) results of the kernel", "why_tests_cant": "Lost completions need a depth above one with the default batch; totals printed by fio look plausible without them.", "anchors": ["engines/sync.c:fio_vsyncio_queue", "engines/sync.c:fio_vsyncio_append", "engines/sync.c:fio_vsyncio_commit", "engines/sync.c:fio_vsyncio_end", "engines/sync.c:fio_vsyncio_getevents", "ioengines.c:td_io_queue", "ioengines.c:td_io_commit", "ioengines.c:td_io_getevents", "backend.c:wait_for_completions"]}
{"id": "C81", "title": "The libaio engine submits every unit once, in order, and hands every one back once", "statement": "Units queued in the ring of the libaio engine are submitted in the order they were queued, each exactly once, whatever the kernel takes at a time; no slot still waiting is overwritten and neither the ring nor the array of events is overrun; every unit submitted is handed back exactly once with its result; at least min and at most max events are returned.", "quantifier": "every depth, sequence of queue, commit and getevents calls, and every answer of io_submit and io_getevents", "why_tests_cant": "Partial submissions at the end of the ring, interrupted waits and shortage of kernel resources hardly occur in tests.", "anchors": ["engines/libaio.c:ring_inc", "engines/libaio.c:fio_libaio_queue", "engines/libaio.c:fio_libaio_commit", "engines/libaio.c:fio_libaio_getevents", "engines/libaio.c:fio_libaio_event", "ioengines.c:td_io_getevents"]}
{"id": "C82", "title": "Priorities of single units come in the shares asked for and are counted in the right place", "statement": "With cmdprio_percentage or cmdprio_bssplit, exactly the given percentage of the 100 random numbers gives a unit of that block size and direction the given priority and the others leave it at the job's priority; the options are refused exactly if the shares of a block size exceed 100; the index in the unit names the entry of the statistics with its priority; no assertion fails and no table is overrun for any unit.", "quantifier": "every option, order of sorting, block size, direction and random number", "why_tests_cant": "Tests look at a few runs; shares need exact counts over all random numbers and sort orders.", "anchors": ["engines/cmdprio.c:fio_cmdprio_set_ioprio", "engines/cmdprio.c:fio_cmdprio_percentage", "engines/cmdprio.c:fio_cmdprio_generate_bsprio_desc", "engines/cmdprio.c:fio_cmdprio_fill_bsprio", "engines/cmdprio.c:assign_clat_prio_index", "engines/cmdprio.c:fio_cmdprio_gen_perc", "options.c:parse_cmdprio_bssplit_entry", "options.c:split_parse_prio_ddir", "os/os-linux.h:ioprio_value"]}
{"id": "C83", "title": "The io_uring rings lose nothing", "statement": "Whatever the job and the kernel do, each unit queued is in exactly one place: waiting in the submission ring, in the kernel, finished in the completion ring, or handed back to the job; the kernel takes the units in the order queued; the events the job reads are the completions posted, in order, at least as many as asked for and not more than the maximum, even if more are posted while it reads; no access falls outside a ring; there is always room for a completion; commit hands over everything; a call for no more events than there are units in the kernel never waits for ever. The counters may wrap around.", "quantifier": "every depth up to 2^31, every sequence of calls and kernel answers, with and without a polling kernel", "why_tests_cant": "The rings are shared with a concurrent kernel and the counters wrap only after 2^32 units; tests see a few interleavings.", "anchors": ["engines/io_uring.c:fio_ioring_queue", "engines/io_uring.c:fio_ioring_commit", "engines/io_uring.c:fio_ioring_queued", "engines/io_uring.c:fio_ioring_cqring_reap", "engines/io_uring.c:fio_ioring_getevents", "engines/io_uring.c:fio_ioring_event", "ioengines.c:td_io_getevents", "lib/roundup.h:roundup_pow2", "lib/fls.h:__fls"]}
{"id": "C84", "title": "Entries of the io_uring submission ring mean what the job asks for", "statement": "Whatever units have used an entry before, after fio_ioring_prep the kernel reads from it exactly the request of the unit: read or write with its data, offset, flags, priority and metadata, trim with its range, sync or data sync of the file, sync of the range written; for the file meant; every N-th with force_async=N is asynchronous; entries of other units are left alone. What comes back is taken as the error, or as the bytes moved.", "quantifier": "every option, every history of units in all places, every unit and every result", "why_tests_cant": "Entries are reused and fields of unions keep what earlier units left; a test would need the right sequence of units in one place.", "anchors": ["engines/io_uring.c:fio_ioring_prep", "engines/io_uring.c:fio_ioring_prep_md", "engines/io_uring.c:fio_ioring_event", "engines/io_uring.c:fio_ioring_cmd_event", "os/linux/io_uring.h:struct io_uring_sqe"]}
{"id": "C85", "title": "The mmap engine reads and writes at the right place", "statement": "Whatever the system answers to mmap, madvise and munmap, a unit of the mmap engine either fails or reads or writes exactly the bytes at its offset in the file, touching nothing outside a mapping, whether the whole file or only parts of it can be mapped and also after the file was closed and opened again; nothing fails while the system does what it is asked; after a sync everything written before is on the disk.", "quantifier": "every file, region, sequence of units and answers of the system", "why_tests_cant": "Failing mmap or madvise calls are not provoked in tests, and a wrong window is only visible for certain sequences of offsets.", "anchors": ["engines/mmap.c:fio_mmapio_prep", "engines/mmap.c:fio_mmapio_prep_full", "engines/mmap.c:fio_mmapio_prep_limited", "engines/mmap.c:fio_mmap_file", "engines/mmap.c:fio_mmapio_queue", "engines/mmap.c:fio_mmapio_open_file", "engines/mmap.c:fio_mmapio_close_file"]}
{"id": "C86", "title": "Asynchronous verification checks every unit once and reports what it finds", "statement": "With verify_async, whatever the number of threads and the order in which they and the job run, each unit handed over is verified by one thread and given back once; no wake-up is lost; verify_async_exit always returns, with all threads ended and every unit verified; an error is set if and only if a unit was bad and such errors are fatal, otherwise each bad unit is counted once.", "quantifier": "every number of threads, every sequence of units, data good or bad, every interleaving and spurious wake-up", "why_tests_cant": "Depends on the interleaving of threads: tests see one order, and lost errors or units leave no trace.", "anchors": ["verify.c:verify_async_thread", "verify.c:verify_async_init", "verify.c:verify_async_exit", "verify.c:verify_io_u_async"]}
{"id": "C87", "title": "Writes get the placement ids that were asked for", "statement": "With dataplacement, the option for ids is taken exactly if it names at most 128 ids of 16 bits in ranges that go up, and then gives them all in order; the ids used are those of the option (streams), of the device, or those of the device with the numbers of the option; nothing outside an array is read; each write gets the id whose turn it is (turn about, counting writes to that file), one drawn, or that of the first scheme entry containing its offset, else 0; other units carry none.", "quantifier": "every option, answer of the device, scheme, sequence of units", "why_tests_cant": "Tests have no FDP devices, and a wrong id has no effect that is visible.", "anchors": ["dataplacement.c:init_ruh_info", "dataplacement.c:init_ruh_scheme", "dataplacement.c:dp_init", "dataplacement.c:dp_fill_dspec_data", "options.c:str_fdp_pli_cb", "engines/io_uring.c:fio_ioring_cmd_fetch_ruhs"]}
{"id": "C88", "title": "sprandom writes every block, and again those drawn", "statement": "The ring is a pair of queues with capacity-1 places. New blocks come in the order of the generator, blocks written again are those drawn, in order, once each and after they were drawn; the end is reported only when every block was written; each region has exactly its number of writes, and what is drawn in it is written again in the next; nothing fails before all regions are full.", "quantifier": "every configuration, sequence of draws, number of calls, with and without cache", "why_tests_cant": "sprandom runs take a whole drive; a failure needs rare draws or sizes that do not divide.", "anchors": ["sprandom.c:sprandom_get_next_offset", "sprandom.c:sprandom_add_with_probability", "pcbuf.h:pcb_push_staged", "pcbuf.h:pcb_pop", "pcbuf.h:pcb_commit", "pcbuf.h:pcb_space_available"]}
{"id": "C89", "title": "A job file is read as it is written", "statement": "Of each line counts what is before a comment, without the white space around it; every section wanted is handed on once, in order, with exactly its options in order and included files put in their place; jobs start from the defaults set before them in the same file; the first job of each further file waits for those before; options outside a section, missing files and refused sections end the reading with an error.", "quantifier": "every text, file system, choice of sections, answer for a section", "why_tests_cant": "Tests read a handful of job files, none with faulty includes.", "anchors": ["init.c:__parse_jobs_ini", "init.c:is_empty_or_comment", "init.c:skip_this_section", "init.c:parse_options", "parse.c:strip_blank_front", "parse.c:strip_blank_end"]}
{"id": "C90", "title": "The text of an option: variables, keywords, arithmetic, and who gets it", "statement": "The text of an option is used with every ${VARIABLE} replaced by its value (by nothing if not set) and every other character kept; then with every keyword ($pagesize, $mb_memory, $ncpus) replaced by its value wherever it stands; if one was replaced and there is arithmetic in the value, the value is replaced by the calculator's answer.  Then each option is given exactly once, with exactly its name and value, to fio's table if that knows the name, else to the engine's; the job is accepted exactly if every option is known and its value accepted.", "quantifier": "all texts, environments, keyword tables of the form fio has, calculators, tables of options and orders of sorting", "why_tests_cant": "texts come from files and the environment; the effects of one substitution on the next, of blanks, lengths and characters such as / or - are not enumerated by tests", "anchors": ["options.c:fio_option_dup_subs", "options.c:fio_keyword_replace", "options.c:bc_calc", "options.c:dup_and_sub_options", "options.c:fio_options_parse", "parse.c:get_option", "parse.c:parse_option"]}
{"id": "C91", "title": "The SCSI commands of the sg engine", "statement": "Every transfer is sent as a command that, read by the SCSI standard, is of the kind asked for, at the block and for the number of blocks of the transfer, with the direction and length of data that command has; a transfer not of whole blocks is refused.  Trims gathered for one command are sent as exactly their ranges to the file they belong to.  Waiting for events returns every unit of every finished command exactly once, with its error, and a synchronous command comes back with its own completion.  The size of a file is what its device answers.", "quantifier": "all transfers, options, block sizes, lists of trims, states of the queues, orders and errors of completions, answers of a device", "why_tests_cant": "needs SCSI devices, large transfers, several files and devices that fail; a wrong byte in a command or a range shows only as other data changed on the medium", "anchors": ["engines/sg.c:fio_sgio_prep", "engines/sg.c:fio_sgio_rw_lba", "engines/sg.c:fio_sgio_unmap_setup", "engines/sg.c:fio_sgio_commit", "engines/sg.c:fio_sgio_getevents", "engines/sg.c:fio_sgio_rw_doio", "engines/sg.c:fio_sgio_read_capacity", "engines/sg.c:fio_sgio_get_file_size"]}
{"id": "C92", "title": "Thinking between I/Os comes as often and takes as long as asked for", "statement": "A job with thinktime stops exactly when thinktime_blocks I/Os were counted since the last stop, or I/O went on for thinktime_iotime; it then spins for thinktime_spin and sleeps for what is missing to thinktime, never past the end of the run; the end of the ramp period changes nothing about when the next pause comes; with rate_ignore_thinktime the pause moves the time at which the next I/O is due, otherwise it does not.", "quantifier": "all options, counters, clocks, times spun and slept, and completions and resets while waiting", "why_tests_cant": "the number of I/Os between pauses, resets in the middle of a wait and times near the end of the run or past 2^31 microseconds are not looked at by tests", "anchors": ["backend.c:handle_thinktime", "backend.c:init_thinktime", "libfio.c:update_thinktime_blocks_counter", "libfio.c:reset_all_stats"]}
{"id": "C93", "title": "The time of the clock thread is read whole", "statement": "A reader of the time kept by the clock thread (gtod_cpu) gets a time that one update wrote, both parts of the same update, and the newest one finished when the successful try began; with no update under way it gets it in five steps.", "quantifier": "all times, all interleavings of the writer's stores, their becoming visible and the reader's loads, all numbers of updates", "why_tests_cant": "a torn time needs an interleaving of single loads and stores, or 2^31 updates; no test can force it", "anchors": ["lib/seqlock.h:read_seqlock_begin", "lib/seqlock.h:read_seqlock_retry", "lib/seqlock.h:write_seqlock_begin", "lib/seqlock.h:write_seqlock_end", "gettime.h:fio_gettime_offload", "gettime-thread.c:fio_gtod_update"]}
{"id": "C94", "title": "Disk statistics are what the kernel counted", "statement": "The numbers reported for a disk are what the kernel counted for it from when fio began to use it to the end of the run, however often it was looked at and also if the kernel's counters of times wrap at 32 bits; the time is that from the first to the last look; opening and closing files counts the users of exactly their disk; a disk made of others has exactly these as its parts, and its numbers are the sums of theirs, whenever they are printed.", "quantifier": "all counters, widths of the printed numbers, numbers and times of looks, sets of disks and parts, orders of opening and closing, numbers of printings", "why_tests_cant": "counters wrap after weeks, software RAID is needed, and wrong numbers look like right ones", "anchors": ["diskutil.c:get_io_ticks", "diskutil.c:safe_32bit_diff", "diskutil.c:update_io_tick_disk", "diskutil.c:disk_util_add", "diskutil.c:find_add_disk_slaves", "diskutil.h:disk_util_mod", "stat.c:aggregate_slaves_stats", "stat.c:show_disk_util"]}
{"id": "C95", "title": "Statistics of a job arrive at the client as the server had them", "statement": "Every number, double and string of a job's and its group's statistics that a server sends is at the client what it was at the server, whichever byte order the two have: also the statistics of each priority and the rings of the steady state, which are behind the struct at places the struct says; no message makes the client go outside of it.", "quantifier": "all statistics, numbers of priorities and lengths of rings, byte orders of the two hosts; all messages", "why_tests_cant": "a field forgotten on one side, a wrong place, a wrong width show only between hosts of different byte order, or as zeros nobody expects", "anchors": ["server.c:fio_server_send_ts", "server.c:convert_io_stat", "server.c:convert_gs", "client.c:convert_ts", "client.c:convert_io_stat", "client.c:convert_gs", "client.c:fio_handle_client", "stat.h:thread_stat"]}
{"id": "C96", "title": "Several smalloc pools: allocations stay apart, NULL only when no pool has room", "statement": "With any number of shared memory pools, live allocations never overlap, giving one back by its address frees it in its own pool and nothing else, new memory is zeroed and no other byte changes; smalloc returns NULL only when no pool has a run of free blocks long enough, also with several callers.", "quantifier": "all sequences of adding pools, allocating, freeing and writing; all addresses and sizes of the pools; all interleavings of callers", "why_tests_cant": "the second pool is only used after 16 MB of shared memory are gone; fragmentation and races on the pool to start with do not show in short tests", "anchors": ["smalloc.c:smalloc", "smalloc.c:sfree", "smalloc.c:smalloc_debug", "smalloc.c:ptr_valid", "smalloc.c:add_pool", "smalloc.c:__smalloc_pool", "smalloc.c:find_best_index"]}
{"id": "C97", "title": "A trim with several ranges trims exactly the ranges drawn", "statement": "With num_range above one the ranges in the buffer of an io_u are the offsets and lengths drawn, each inside of the file, as many as the io_u and the command to the device say; the io_u's buffer is never left and the length of the io_u is their sum; no byte is in two of them with a random map; a command whose ranges are all inside of the file is issued.", "quantifier": "all options, files, draws of offsets and lengths, contents of the random map and of the buffers, block formats of the device", "why_tests_cant": "needs an NVMe device; a range too long, a range trimmed twice or the end of the device never trimmed show in no statistics", "anchors": ["io_u.c:fill_multi_range_io_u", "io_u.c:fill_io_u", "io_u.c:mark_random_map", "engines/nvme.c:fio_nvme_uring_cmd_trim_prep", "engines/io_uring.c:fio_ioring_init", "backend.c:init_io_u_buffers"]}
{"id": "C98", "title": "Merged block traces hold exactly the records of all traces, in time order", "statement": "merge_blktrace_iologs writes the queued reads, writes and discards of all files and nothing else, each as often as asked, their times scaled, those of a file in its order and all in the order of time when each file is, whatever the byte order of a file and the data behind its records; it ends; a job is refused if and only if this did not work.", "quantifier": "all numbers and contents of files, byte orders, scales, iterations, numbers of records, data behind records, contents of fresh memory", "why_tests_cant": "the output is a binary file that no test reads back record by record; one record too many or a time scaled twice changes a replay only slightly; fresh memory is mostly zero in tests", "anchors": ["blktrace.c:merge_blktrace_iologs", "blktrace.c:read_trace", "blktrace.c:merge_finish_file", "blktrace.c:find_earliest_io", "blktrace.c:init_merge_param_list", "blktrace.c:is_blktrace", "blktrace.c:byteswap_trace", "blktrace.c:discard_pdu", "blktrace.c:write_trace", "init.c:add_job"]}
{"id": "C99", "title": "A block trace is replayed as the I/Os that were queued, where and when they were", "statement": "init_blktrace_read turns a block trace into exactly the queued reads, writes, discards and flushes that are not skipped, in order, at their offsets and lengths after scaling and alignment, on the file of their device, which is opened before; the delays add up to the times of the trace; the directions and block sizes of the job are those of the I/Os and its depth is between 1 and 1024; any other trace is refused.", "quantifier": "all contents of the file, byte orders, records, data behind them, devices, scales, alignments, skipped directions, read-only mode", "why_tests_cant": "needs traces of real devices; an I/O replayed on the wrong device or at the wrong time is only seen when compared with the trace, and closing a file twice mostly goes unnoticed", "anchors": ["blktrace.c:init_blktrace_read", "blktrace.c:read_blktrace", "blktrace.c:queue_trace", "blktrace.c:handle_trace_fs", "blktrace.c:handle_trace_discard", "blktrace.c:handle_trace_flush", "blktrace.c:trace_add_file", "blktrace.c:store_ipo", "blktrace.c:t_bytes_align", "blktrace.c:depth_end", "iolog.c:delay_since_ttime", "iolog.h:ipo_bytes_align", "filesetup.c:add_file_exclusive"]}
{"id": "C100", "title": "The options of a job arrive at the other side as they were sent", "statement": "convert_thread_options_to_net followed by convert_thread_options_to_cpu gives the receiver every number, double, string, split, sequence, identifier and pattern of the options of the sender, on hosts of either byte order, whatever was in the memory of the message and whatever the receiver had before; a message from the network is taken or refused without leaving any array.", "quantifier": "all options, byte orders, contents of memory, previous options of the receiver, received messages", "why_tests_cant": "the test in the code compares two messages that lack the same options; an option that is lost looks like a default, and memory read behind an array mostly holds something harmless", "anchors": ["cconv.c:convert_thread_options_to_net", "cconv.c:convert_thread_options_to_cpu", "cconv.c:string_to_cpu", "cconv.c:__string_to_net", "cconv.c:thread_options_pack_size", "cconv.c:fio_test_cconv", "thread_options.h:thread_options", "thread_options.h:thread_options_pack", "client.c:fio_client_update_options", "server.c:fio_server_send_add_job", "server.c:handle_update_job_cmd"]}
{"id": "C101", "title": "The log of a job is written on the client as it would be on the server", "statement": "For every log of a job, fio_send_iolog on the server followed by fio_client_handle_iolog on the client writes to the file named after the log and the host exactly the lines that flush_log would have written on the server, on hosts of either byte order, with and without compression.", "quantifier": "all logs (numbers and sizes of buffers, samples, what is logged), byte orders, compression outputs, memory contents", "why_tests_cant": "the tests run one fio without a server and do not compare log files of a client with those of a server", "anchors": ["server.c:fio_send_iolog", "server.c:fio_append_iolog_gz", "server.c:__fio_append_iolog_gz", "server.c:fio_append_text_log", "server.c:fio_append_gz_chunks", "client.c:convert_iolog", "client.c:convert_iolog_gz", "client.c:fio_client_handle_iolog", "iolog.c:flush_samples", "iolog.c:flush_log"]}
{"id": "C102", "title": "lockfile= keeps the jobs of a file apart", "statement": "With lockfile=exclusive at most one of the jobs that share a file does I/O to it at any time; with lockfile=readwrite any number may read at a time but a write is alone; and no job waits forever for the lock.", "quantifier": "all numbers of jobs, interleavings of opens, closes, I/Os and their outcomes", "why_tests_cant": "needs interleavings of several jobs with opens and closes of the same file and of busy engines; the tests have one job that uses lockfile and do not look at overlap", "anchors": ["filesetup.c:lock_file", "filesetup.c:unlock_file", "filesetup.c:unlock_file_all", "filesetup.c:file_lookup_open", "filesetup.c:generic_open_file", "filesetup.c:dup_files", "ioengines.c:td_io_prep", "ioengines.c:td_io_queue", "backend.c:fio_io_sync", "backend.c:do_verify"]}
{"id": "C103", "title": "The report counts every job once and where it belongs", "statement": "In the report at the end every job with stats is counted in exactly one entry; jobs are in one entry if and only if they have group_reporting and are of one group; entries and groups show the sums of the bytes and the longest runtime of their jobs; and the report reads and writes only entries and groups that there are.", "quantifier": "all lists of jobs, groups, options stats, group_reporting and unified_rw_reporting, bytes and runtimes", "why_tests_cant": "needs lists of jobs that differ in group_reporting and stats; the tests use few jobs with the same options", "anchors": ["stat.c:__show_run_stats", "stat.c:init_per_prio_stats", "stat.c:sum_thread_stats", "stat.c:init_group_run_stat", "init.c:add_job"]}
{"id": "C104", "title": "Statistics per priority count every I/O once and under its priority", "statement": "Latency statistics per priority in the report count, for every priority and direction (all directions together with unified_rw_reporting=mixed), exactly the latencies of the I/Os of that priority of all jobs of the entry: number, smallest, largest and histogram; no priority is listed twice, every priority that was used is listed, and no such statistics are made only if there is one priority.", "quantifier": "all lists of jobs with any priorities, arrays of priorities and completed I/Os", "why_tests_cant": "needs groups of jobs with different and overlapping priorities; the tests have no job with priorities", "anchors": ["stat.c:add_lat_sample", "stat.c:add_clat_sample", "stat.c:sum_clat_prio_stats", "stat.c:clat_prio_stat_add_samples", "stat.c:sum_thread_stats", "stat.c:init_per_prio_stats"]}
{"id": "C105", "title": "The summary of all servers is shown once and is the sum of all entries", "statement": "A client of several servers shows the summary \"All clients\" exactly once if it received two or more entries, after the last, and it is the sum of all entries received: bytes and group numbers added up, longest runtimes, extremes of runtimes and bandwidths; a server announces as many entries as it sends.", "quantifier": "all sequences of messages and disconnections of any number of servers, all job files as lists of sections", "why_tests_cant": "needs several servers that start, finish and disconnect in different orders; the tests run no server", "anchors": ["client.c:handle_ts", "client.c:handle_start", "client.c:fio_put_client", "stat.c:sum_group_stats", "stat.c:sum_thread_stats", "init.c:get_new_job"]}
{"id": "C106", "title": "Every request for the ETA is shown once with the answers to it", "statement": "A client asks its servers for the ETA; whatever they answer, fail to answer, or disconnect, a request is never used after it was freed, never shown twice, shown with exactly the awaited answers to it, and is shown when all servers that were asked have answered, timed out or left.", "quantifier": "all sequences of requests, answers, timeouts, disconnections and changes of state of any number of servers", "why_tests_cant": "needs interleavings of timeouts, late answers and disconnections of several servers; the tests run no server", "anchors": ["client.c:request_client_etas", "client.c:handle_eta", "client.c:fio_client_dec_jobs_eta", "client.c:handle_cmd_timeout", "client.c:remove_client", "client.c:remove_reply_cmd"]}
{"id": "C107", "title": "The status line says the state of every job and the time left, within its buffers", "statement": "The condensed string with the states of the jobs can be read back to the state of every job in order, so that different states are shown differently; writing it stays within five bytes for each job and one, also on the way; and the time left is shown with exactly its seconds below 2^32 days and always fits its buffer.", "quantifier": "all strings of states of any length, all times", "why_tests_cant": "the longest strings need thousands of jobs in alternating states; no test reads the status line", "anchors": ["eta.c:update_condensed_str", "eta.c:eta_to_str", "eta.c:get_jobs_eta", "stat.h:__THREAD_RUNSTR_SZ"]}
{"id": "C108", "title": "Periodic functions of the helper thread are called once in every interval", "statement": "The function of every timer of the helper thread (disk utilisation, status output, steady state, ramp) is called never more often than its interval allows up to the accuracy of sleeping, at all times; and if the thread never oversleeps by more than this accuracy, exactly as often as intervals have passed, without drift over any number of rounds. It never sleeps past a timer, and after a jump of the clock forward every timer goes on.", "quantifier": "all tables of intervals, all sequences of wake-ups with a clock that does not go back, any accuracy not above the interval", "why_tests_cant": "drift and missed calls show only over long runs and with delays of the scheduler", "anchors": ["helper_thread.c:eval_timer", "helper_thread.c:reset_timers", "helper_thread.c:helper_thread_main", "gettime.c:rel_time_since", "time.c:timespec_add_msec"]}
{"id": "C109", "title": "The null engine returns every unit once and in order", "statement": "Whatever the order of queueing, committing and reaping, the null engine touches nothing outside its array, returns the units it took in the order in which it took them and each once, keeps none back once one is awaited, and refuses a unit only while committed units wait to be read.", "quantifier": "all sequences of queue, commit and getevents with at most iodepth units away, all depths", "why_tests_cant": "the engine is used to measure, no test compares the units returned with those queued", "anchors": ["engines/null.c:null_queue", "engines/null.c:null_commit", "engines/null.c:null_getevents", "engines/null.c:null_event", "engines/null.c:null_init"]}
{"id": "C110", "title": "posixaio returns every finished unit once with its result", "statement": "Whenever requests end while the posixaio engine waits, it returns all units in flight whose requests are over, each once, with the bytes not transferred or the error of its request, leaves all others as they are, counts them off, never writes behind its array of events, and goes on waiting only while fewer than the wanted number are over.", "quantifier": "all sets of units, all orders and moments in which requests end, all results, with and without timeout", "why_tests_cant": "which requests are over at which pass depends on the system", "anchors": ["engines/posixaio.c:fio_posixaio_getevents", "engines/posixaio.c:fio_posixaio_init"]}
{"id": "C111", "title": "The kinds of NVMe writes come in the shares asked for", "statement": "With write_mode= and several entries every option that makes sense is accepted, each entry gets its percentage of the draws, blank entries equal parts of what is left; every write gets one of the operations asked for, and flags that tell verification what the block then holds.", "quantifier": "all options, all draws", "why_tests_cant": "shares of random choices; needs an NVMe device", "anchors": ["engines/io_uring.c:str_write_mode_cb", "engines/io_uring.c:fio_ioring_cmd_prep_write_split"]}
{"id": "C112", "title": "Messages of the server go out whole, once, and those queued in order", "statement": "However the threads of a server that queue messages, send messages at once and empty the queue take turns, the parts of a message are never mixed with those of another, messages that were queued go out in the order in which they were queued and each once, none is lost, and sending never gets stuck.", "quantifier": "all interleavings of any number of threads, all messages of any number of parts", "why_tests_cant": "depends on the interleaving of threads; no test runs a server under load", "anchors": ["server.c:fio_net_queue_entry", "server.c:handle_sk_entry", "server.c:send_vec_entry", "server.c:handle_xmits"]}
{"id": "C113", "title": "The splice engine moves the bytes of the unit", "statement": "However much each call of the system moves, a write of the splice engine puts the buffer at the offset of the unit and changes nothing else, a read puts the bytes of the file into the buffer and never more than fit, both leave the pipe empty, and a read comes to its end.", "quantifier": "all files, buffers, offsets and lengths, all answers of splice, vmsplice and read", "why_tests_cant": "how much a call moves depends on the system; short moves and systems without vmsplice to the user do not occur in tests", "anchors": ["engines/splice.c:fio_splice_read_old", "engines/splice.c:fio_splice_read", "engines/splice.c:fio_splice_write"]}
