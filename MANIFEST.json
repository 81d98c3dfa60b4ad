{
 "claims": [
  {
   "property": "C01",
   "status": "proved",
   "theorems": [
    "Mlibc.MemFns.memcpy_exact"
   ],
   "note": ""
  },
  {
   "property": "C02",
   "status": "proved",
   "theorems": [
    "Mlibc.MemFns.memmove_exact"
   ],
   "note": ""
  },
  {
   "property": "C03",
   "status": "proved",
   "theorems": [
    "Mlibc.MemFns.memset_exact"
   ],
   "note": ""
  },
  {
   "property": "C04",
   "status": "proved",
   "theorems": [
    "Mlibc.Str.strlen_exact",
    "Mlibc.Str.strnlen_exact",
    "Mlibc.Str.strnlen_min"
   ],
   "note": ""
  },
  {
   "property": "C05",
   "status": "partial",
   "theorems": [
    "Mlibc.Str.memcmp_sign",
    "Mlibc.Str.strncasecmp_sign",
    "Mlibc.Str.strncmp_sign",
    "Mlibc.Str.strcasecmp_sign",
    "Mlibc.Str.strcmp_sign",
    "Mlibc.Str.strcmp_antisymm",
    "Mlibc.Str.strcmp_trans",
    "Mlibc.Str.wmemcmp_sign",
    "Mlibc.Str.wcsncmp_sign",
    "Mlibc.Str.wcscmp_sign_partial",
    "Mlibc.Str.wcscmp_overflow_violated"
   ],
   "note": "wcscmp subtracts wchar_t values, which overflows for far-apart values; all other comparison functions are exact"
  },
  {
   "property": "C06",
   "status": "partial",
   "theorems": [
    "Mlibc.Str.strstr_first",
    "Mlibc.Str.wcsstr_first_partial",
    "Mlibc.Str.wcsstr_empty_violated",
    "Mlibc.Str.memmem_first_partial",
    "Mlibc.Str.memmem_empty_violated",
    "Mlibc.Str.strcasestr_first_partial",
    "Mlibc.Str.strcasestr_empty_violated"
   ],
   "note": "an empty needle in an empty haystack is not found by wcsstr, memmem and strcasestr"
  },
  {
   "property": "C07",
   "status": "proved",
   "theorems": [
    "Mlibc.Str.memchr_first",
    "Mlibc.Str.memrchr_last",
    "Mlibc.Str.strchr_first",
    "Mlibc.Str.wcschr_first",
    "Mlibc.Str.strchrnul_first",
    "Mlibc.Str.strspn_exact",
    "Mlibc.Str.strcspn_exact",
    "Mlibc.Str.strpbrk_first",
    "Mlibc.Str.strrchr_last",
    "Mlibc.Str.wcscspn_exact"
   ],
   "note": ""
  },
  {
   "property": "C08",
   "status": "proved",
   "theorems": [
    "Mlibc.Str.strtok_tokens",
    "Mlibc.Str.wcstok_eq_strtok",
    "Mlibc.Str.strsep_fields"
   ],
   "note": ""
  },
  {
   "property": "C09",
   "status": "partial",
   "theorems": [
    "Mlibc.Str.strcpy_exact",
    "Mlibc.Str.strncpy_exact_partial",
    "Mlibc.Str.strncpy_overread_violated",
    "Mlibc.Str.wcsncpy_exact",
    "Mlibc.Str.strcat_exact",
    "Mlibc.Str.strncat_exact_partial",
    "Mlibc.Str.strncat_overread_violated",
    "Mlibc.Str.strlcpy_exact",
    "Mlibc.Str.strlcat_exact",
    "Mlibc.Str.stpcpy_exact",
    "Mlibc.Str.stpncpy_exact_partial",
    "Mlibc.Str.stpncpy_overread_violated",
    "Mlibc.Str.memccpy_found",
    "Mlibc.Str.memccpy_notFound",
    "Mlibc.Str.strdup_exact",
    "Mlibc.Str.strndup_exact"
   ],
   "note": "strncpy, strncat and stpncpy read the source beyond n characters"
  },
  {
   "property": "C10",
   "status": "partial",
   "theorems": [
    "Mlibc.Strtol.strtol_exact_partial",
    "Mlibc.Strtol.strtol_decimal_roundtrip",
    "Mlibc.Strtol.strtol_bare_bin_prefix_violated"
   ],
   "note": "0b without a binary digit is not read as 0"
  },
  {
   "property": "C11",
   "status": "proved",
   "theorems": [
    "Mlibc.Utf8.wcrtomb_encodes",
    "Mlibc.Utf8.utf8_roundtrip",
    "Mlibc.Utf8.utf8_roundtrip_null",
    "Mlibc.Utf8.encodings_prefix_free",
    "Mlibc.Utf8.encodings_unique",
    "Mlibc.Utf8.wcrtomb_surrogate_violated"
   ],
   "note": "the last theorem is about surrogates, outside the quantifier of C11"
  },
  {
   "property": "C12",
   "status": "proved",
   "theorems": [
    "Mlibc.Utf8.mbrtowc_accepts",
    "Mlibc.Utf8.mbrtowc_null",
    "Mlibc.Utf8.mbrtowc_incomplete",
    "Mlibc.Utf8.mbrtowc_rejects",
    "Mlibc.Utf8.mbrtowc_sound"
   ],
   "note": ""
  },
  {
   "property": "C13",
   "status": "partial",
   "theorems": [
    "Mlibc.Utf8.mbrtowc_chunking",
    "Mlibc.Utf8.mbrtowc_stream",
    "Mlibc.Utf8.mbrtowc_empty_violated"
   ],
   "note": "an empty chunk makes mbrtowc return 0 instead of (size_t)-2"
  },
  {
   "property": "C14",
   "status": "partial",
   "theorems": [
    "Mlibc.Utf8.mbsrtowcs_fits",
    "Mlibc.Utf8.mbsrtowcs_limit",
    "Mlibc.Utf8.mbsrtowcs_illformed",
    "Mlibc.Utf8.mbsrtowcs_total",
    "Mlibc.Utf8.mbsrtowcs_zero_limit_violated",
    "Mlibc.Utf8.mbsrtowcs_len",
    "Mlibc.Utf8.mbsnrtowcs_len",
    "Mlibc.Utf8.mbsnrtowcs_bytes",
    "Mlibc.Utf8.mbsnrtowcs_fits",
    "Mlibc.Utf8.mbsnrtowcs_limit",
    "Mlibc.Utf8.wcsnrtombs_cut",
    "Mlibc.Utf8.wcsnrtombs_fits",
    "Mlibc.Utf8.wcsnrtombs_end",
    "Mlibc.Utf8.wcsrtombs_fits",
    "Mlibc.Utf8.wcsrtombs_limit_partial",
    "Mlibc.Utf8.wcsrtombs_cut_violated",
    "Mlibc.Utf8.wcsnrtombs_len",
    "Mlibc.Utf8.wcsrtombs_len"
   ],
   "note": "wcsrtombs aborts when a character does not fit; limit 0 aborts"
  },
  {
   "property": "C15",
   "status": "proved",
   "theorems": [
    "Mlibc.Sort.qsort_permutes",
    "Mlibc.Sort.qsort_sorts"
   ],
   "note": ""
  },
  {
   "property": "C16",
   "status": "proved",
   "theorems": [
    "Mlibc.Sort.bsearch_safe",
    "Mlibc.Sort.bsearch_finds"
   ],
   "note": ""
  },
  {
   "property": "C17",
   "status": "proved",
   "theorems": [
    "Mlibc.Search.tsearch_present",
    "Mlibc.Search.tsearch_absent",
    "Mlibc.Search.tfind_present",
    "Mlibc.Search.tdelete_absent",
    "Mlibc.Search.tdelete_present",
    "Mlibc.Search.tree_is_ordered_set"
   ],
   "note": ""
  },
  {
   "property": "C18",
   "status": "partial",
   "theorems": [
    "Mlibc.Search.tree_balanced_partial",
    "Mlibc.Search.balanced_log",
    "Mlibc.Search.tdelete_unbalanced_violated"
   ],
   "note": "deletion does not rebalance the ancestors"
  },
  {
   "property": "C19",
   "status": "proved",
   "theorems": [
    "Mlibc.Search.twalk_events",
    "Mlibc.Search.twalk_inorder",
    "Mlibc.Search.tdestroy_all"
   ],
   "note": ""
  },
  {
   "property": "C20",
   "status": "proved",
   "theorems": [
    "Mlibc.Hash.hsearch_is_bounded_map",
    "Mlibc.Hash.spec_other_keys",
    "Mlibc.Hash.hsearch_empty_table_ub"
   ],
   "note": ""
  },
  {
   "property": "C21",
   "status": "proved",
   "theorems": [
    "Mlibc.Linear.lfind_first",
    "Mlibc.Linear.lsearch_exact",
    "Mlibc.Linear.lsearch_full",
    "Mlibc.Linear.insque_first",
    "Mlibc.Linear.insque_queue",
    "Mlibc.Linear.insque_ring",
    "Mlibc.Linear.remque_queue",
    "Mlibc.Linear.remque_ring",
    "Mlibc.Linear.insque_remque_queue"
   ],
   "note": ""
  },
  {
   "property": "C22",
   "status": "partial",
   "theorems": [
    "Mlibc.Env.getenv_first",
    "Mlibc.Env.env_is_map_partial",
    "Mlibc.Env.setenv_rejects",
    "Mlibc.Env.clearenv_violated",
    "Mlibc.Env.unsetenv_duplicate_violated",
    "Mlibc.Env.unsetenv_other_violated",
    "Mlibc.Env.empty_name_violated"
   ],
   "note": "clearenv does nothing; unsetenv with duplicate names; empty names are accepted"
  },
  {
   "property": "C23",
   "status": "partial",
   "theorems": [
    "Mlibc.Getopt.getopt_permuting_partial",
    "Mlibc.Getopt.getopt_plus_partial",
    "Mlibc.Getopt.getopt_cluster_violated",
    "Mlibc.Getopt.getopt_cluster_skips_violated",
    "Mlibc.Getopt.getopt_missing_argument_violated",
    "Mlibc.Getopt.getopt_dash_argument_violated",
    "Mlibc.Getopt.getopt_colon_violated"
   ],
   "note": "one option per word; clusters, missing arguments and arguments starting with - are mishandled"
  },
  {
   "property": "C24",
   "status": "proved",
   "theorems": [
    "Mlibc.Stdio.output_exact",
    "Mlibc.Stdio.output_exact_file",
    "Mlibc.Stdio.output_exact_pipe",
    "Mlibc.Stdio.line_prompt",
    "Mlibc.Stdio.history_exact_partial"
   ],
   "note": ""
  },
  {
   "property": "C25",
   "status": "proved",
   "theorems": [
    "Mlibc.Stdio.input_exact",
    "Mlibc.Stdio.input_exact_file",
    "Mlibc.Stdio.history_exact_partial"
   ],
   "note": ""
  },
  {
   "property": "C26",
   "status": "partial",
   "theorems": [
    "Mlibc.Stdio.history_exact_partial",
    "Mlibc.Stdio.tell_then_seek",
    "Mlibc.Stdio.seek_cur_partial",
    "Mlibc.Stdio.seek_cur_violated"
   ],
   "note": "SEEK_CUR ignores pushed-back bytes"
  },
  {
   "property": "C27",
   "status": "partial",
   "theorems": [
    "Mlibc.Stdio.unget_read",
    "Mlibc.Stdio.unget_lifo",
    "Mlibc.Stdio.seek_discards_unget",
    "Mlibc.Stdio.history_exact_partial",
    "Mlibc.Stdio.ungetc_partial",
    "Mlibc.Stdio.unget_eof_violated",
    "Mlibc.Stdio.ungetc_violated"
   ],
   "note": "a buffered read that runs past pushed-back bytes into end-of-file loses them; ungetc returns a negative value for bytes from 128"
  },
  {
   "property": "C28",
   "status": "partial",
   "theorems": [
    "Mlibc.Stdio.fread_partial",
    "Mlibc.Stdio.fread_error_violated",
    "Mlibc.Stdio.fwrite_exact"
   ],
   "note": "fread returns 0 when a read fails after some items"
  },
  {
   "property": "C29",
   "status": "partial",
   "theorems": [
    "Mlibc.Stdio.fgets_partial",
    "Mlibc.Stdio.fgets_error_violated"
   ],
   "note": "fgets returns a partial line on a read error"
  },
  {
   "property": "C30",
   "status": "partial",
   "theorems": [
    "Mlibc.Stdio.getdelim_partial",
    "Mlibc.Stdio.getdelim_err_violated"
   ],
   "note": "a stream whose error indicator is already set loses a byte"
  },
  {
   "property": "C31",
   "status": "partial",
   "theorems": [
    "Mlibc.Stdio.fmem_history_partial",
    "Mlibc.Stdio.fmem_open_contents",
    "Mlibc.Stdio.fmem_read_back_partial",
    "Mlibc.Stdio.fmem_nul_violated",
    "Mlibc.Stdio.fmem_last_byte_violated",
    "Mlibc.Stdio.memstream_exact_partial",
    "Mlibc.Stdio.memstream_negative_violated",
    "Mlibc.Stdio.memstream_truncate_violated"
   ],
   "note": "fmemopen writes a terminator over data; open_memstream accepts negative positions and SEEK_END truncates"
  },
  {
   "property": "C32",
   "status": "partial",
   "theorems": [
    "Mlibc.Printf.snprintf_exact_partial",
    "Mlibc.Printf.snprintf_lc_zero_violated"
   ],
   "note": "a zero byte produced by %lc is not counted"
  },
  {
   "property": "C33",
   "status": "proved",
   "theorems": [
    "Mlibc.Printf.vasprintf_exact"
   ],
   "note": ""
  },
  {
   "property": "C34",
   "status": "proved",
   "theorems": [
    "Mlibc.Conc.Mutex.mutual_exclusion"
   ],
   "note": ""
  },
  {
   "property": "C35",
   "status": "proved",
   "theorems": [
    "Mlibc.Conc.Mutex.no_lost_wakeup",
    "Mlibc.Conc.Mutex.wake_wakes"
   ],
   "note": ""
  },
  {
   "property": "C36",
   "status": "partial",
   "theorems": [
    "Mlibc.Conc.Mutex.held_until_matched_partial",
    "Mlibc.Conc.Mutex.relock_by_owner_partial",
    "Mlibc.Conc.Mutex.edeadlk_only_owner",
    "Mlibc.Conc.Mutex.ebusy_only_taken_partial",
    "Mlibc.Conc.Mutex.trylock_busy",
    "Mlibc.Conc.Mutex.errorcheck_eperm_violated",
    "Mlibc.Conc.Mutex.errorcheck_unlocked_violated"
   ],
   "note": "unlocking an error-checking mutex owned by another thread reports EPERM but releases it; unlocking a free one aborts"
  },
  {
   "property": "C37",
   "status": "proved",
   "theorems": [
    "Mlibc.Conc.Once.once_exactly_once",
    "Mlibc.Conc.Once.once_no_lost_wakeup",
    "Mlibc.Conc.Once.once_wakes",
    "Mlibc.Conc.Once.once_after"
   ],
   "note": ""
  },
  {
   "property": "C38",
   "status": "partial",
   "theorems": [
    "Mlibc.Conc.Cond.released_returns_partial",
    "Mlibc.Conc.Cond.broadcast_releases_all",
    "Mlibc.Conc.Cond.signal_releases_one",
    "Mlibc.Conc.Cond.wait_returns_locked",
    "Mlibc.Conc.Cond.cond_no_crash_partial",
    "Mlibc.Conc.Cond.cond_wrap_violated"
   ],
   "note": "fewer than 2^32 signals during one wait"
  },
  {
   "property": "C39",
   "status": "partial",
   "theorems": [
    "Mlibc.Conc.Barrier.barrier_rounds_partial",
    "Mlibc.Conc.Barrier.barrier_returns_joined",
    "Mlibc.Conc.Barrier.barrier_no_lost_wakeup_partial",
    "Mlibc.Conc.Barrier.barrier_wakes",
    "Mlibc.Conc.Barrier.barrier_wrap_violated",
    "Mlibc.Conc.Barrier.barrier_backwards_violated"
   ],
   "note": "fewer rounds than the generation number can count; wakeups when exactly count threads use the barrier"
  },
  {
   "property": "C41",
   "status": "partial",
   "theorems": [
    "Mlibc.Conc.Sem.sem_conserves",
    "Mlibc.Conc.Sem.sem_getvalue",
    "Mlibc.Conc.Sem.sem_no_lost_wakeup",
    "Mlibc.Conc.Sem.sem_wakes",
    "Mlibc.Conc.Sem.sem_post_fails",
    "Mlibc.Conc.Sem.sem_trywait_partial",
    "Mlibc.Conc.Sem.sem_trywait_no_blocking",
    "Mlibc.Conc.Sem.sem_trywait_violated"
   ],
   "note": "sem_trywait fails once any wait has blocked"
  },
  {
   "property": "C42",
   "status": "partial",
   "theorems": [
    "Mlibc.Conc.FutexLock.exclusion_partial",
    "Mlibc.Conc.FutexLock.nests",
    "Mlibc.Conc.FutexLock.no_lost_wakeup",
    "Mlibc.Conc.FutexLock.try_fails_only_taken",
    "Mlibc.Conc.FutexLock.ftrylock_owner_violated",
    "Mlibc.Conc.Spin.spin_exclusion",
    "Mlibc.Conc.Spin.spin_returns"
   ],
   "note": "ftrylockfile by the owner aborts"
  },
  {
   "property": "C40",
   "status": "partial",
   "theorems": [
    "Mlibc.Conc.Rwlock.rw_exclusion",
    "Mlibc.Conc.Rwlock.rw_no_lost_wakeup",
    "Mlibc.Conc.Rwlock.rw_wakes",
    "Mlibc.Conc.Rwlock.rw_readers_share",
    "Mlibc.Conc.Rwlock.rw_try_partial",
    "Mlibc.Conc.Rwlock.rw_trywr_partial",
    "Mlibc.Conc.Rwlock.rw_try_violated"
   ],
   "note": "try-locks also fail while another thread is only acquiring"
  },
  {
   "property": "C43",
   "status": "proved",
   "theorems": [
    "Mlibc.Keys.keys_history"
   ],
   "note": "every history of key_create/key_delete/getspecific/setspecific by any threads refines a map per thread"
  },
  {
   "property": "C44",
   "status": "partial",
   "theorems": [
    "Mlibc.ThreadExit.exit_lifo",
    "Mlibc.ThreadExit.exit_calls_all_partial",
    "Mlibc.ThreadExit.dtor_calls_bounded",
    "Mlibc.ThreadExit.key_destructors_partial",
    "Mlibc.ThreadExit.exit_tl_lost_violated",
    "Mlibc.ThreadExit.exit_value_seen_violated",
    "Mlibc.ThreadExit.exit_reset_lost_violated"
   ],
   "note": "value not NULL during its destructor; re-set value lost; late TL destructors lost"
  },
  {
   "property": "C45",
   "status": "partial",
   "theorems": [
    "Mlibc.AtExit.atexit_history_partial",
    "Mlibc.AtExit.quick_exit_reverse",
    "Mlibc.AtExit.exit_nested_register_violated",
    "Mlibc.AtExit.exit_dangling_violated",
    "Mlibc.AtExit.exit_nested_finalize_violated"
   ],
   "note": "handlers that register or finalise break the property"
  },
  {
   "property": "C46",
   "status": "partial",
   "theorems": [
    "Mlibc.Conc.Join.join_value",
    "Mlibc.Conc.Join.detach_once_partial",
    "Mlibc.Conc.Join.join_no_lost_wakeup",
    "Mlibc.Conc.Join.join_twice_violated"
   ],
   "note": "double join/detach both succeed"
  },
  {
   "property": "C47",
   "status": "partial",
   "theorems": [
    "Mlibc.SigSet.sigset_history_partial",
    "Mlibc.SigSet.sig_int_min_violated"
   ],
   "note": "signal number INT_MIN overflows in sig-1; every other int is covered"
  },
  {
   "property": "C48",
   "status": "partial",
   "theorems": [
    "Mlibc.CpuSet.cpuset_history_partial",
    "Mlibc.CpuSet.cpu_alloc_size",
    "Mlibc.CpuSet.cpu_negative_violated",
    "Mlibc.CpuSet.cpu_large_violated"
   ],
   "note": "negative CPU numbers are not rejected; set sizes of 2^28 bytes and more make the bound negative"
  },
  {
   "property": "C50",
   "status": "proved",
   "theorems": [
    "Mlibc.ByteOrder.hton_network",
    "Mlibc.ByteOrder.ntoh_network",
    "Mlibc.ByteOrder.hton_inverse"
   ],
   "note": ""
  },
  {
   "property": "C51",
   "status": "partial",
   "theorems": [
    "Mlibc.Deadline.abs_to_rel_partial",
    "Mlibc.Deadline.rel_to_abs_exact",
    "Mlibc.Deadline.rel_abs_rel",
    "Mlibc.Deadline.deadline_far_past_violated",
    "Mlibc.Deadline.deadline_invalid_violated"
   ],
   "note": "a deadline whose difference overflows is an error; nanoseconds are not validated"
  },
  {
   "property": "C54",
   "status": "proved",
   "theorems": [
    "Mlibc.Libgen.basename_component",
    "Mlibc.Libgen.basename_special",
    "Mlibc.Libgen.dirname_single",
    "Mlibc.Libgen.dirname_root",
    "Mlibc.Libgen.dirname_prefix",
    "Mlibc.Libgen.dirname_special",
    "Mlibc.Libgen.path_cases",
    "Mlibc.Libgen.recombine"
   ],
   "note": ""
  },
  {
   "property": "C55",
   "status": "partial",
   "theorems": [
    "Mlibc.Getsubopt.getsubopt_all_partial",
    "Mlibc.Getsubopt.getsubopt_progress",
    "Mlibc.Getsubopt.getsubopt_unknown_violated"
   ],
   "note": "an unknown suboption with a value reports only the value"
  },
  {
   "property": "C58",
   "status": "proved",
   "theorems": [
    "Mlibc.AllocSize.overflow_fails",
    "Mlibc.AllocSize.calloc_exact",
    "Mlibc.AllocSize.reallocarray_exact",
    "Mlibc.AllocSize.posix_memalign_check",
    "Mlibc.AllocSize.aligned_alloc_check"
   ],
   "note": ""
  },
  {
   "property": "C60",
   "status": "partial",
   "theorems": [
    "Mlibc.Mode.mode_flags_partial",
    "Mlibc.Mode.mode_other_partial",
    "Mlibc.Mode.mode_junk_violated",
    "Mlibc.Mode.mode_empty_violated"
   ],
   "note": "modes outside the grammar are partly accepted; the empty mode is read past its end"
  },
  {
   "property": "C59",
   "status": "partial",
   "theorems": [
    "Mlibc.DebugAlloc.debug_heap_partial",
    "Mlibc.DebugAlloc.overrun_faults",
    "Mlibc.DebugAlloc.blocks_disjoint",
    "Mlibc.DebugAlloc.aligned_partial",
    "Mlibc.DebugAlloc.aligned_violated",
    "Mlibc.DebugAlloc.huge_violated"
   ],
   "note": "requests within 16384 bytes of 2^64 wrap around; aligned requests panic when the size is not a multiple of the alignment"
  },
  {
   "property": "C49",
   "status": "partial",
   "theorems": [
    "Mlibc.Inet.ntop4_exact",
    "Mlibc.Inet.roundtrip4",
    "Mlibc.Inet.pton4_exact_partial",
    "Mlibc.Inet.pton4_overread_violated",
    "Mlibc.Inet.pton4_trailing_violated",
    "Mlibc.Inet.ntoa_exact",
    "Mlibc.Inet.aton_decimal",
    "Mlibc.Inet.aton_ntoa",
    "Mlibc.Inet.aton_negative_violated",
    "Mlibc.Inet.ntop6_fits",
    "Mlibc.Inet.ntop6_refuses_partial",
    "Mlibc.Inet.ntop6_overflow_violated",
    "Mlibc.Inet.text6_exists",
    "Mlibc.Inet.pton6_full",
    "Mlibc.Inet.pton6_groups",
    "Mlibc.Inet.pton6_short",
    "Mlibc.Inet.pton6_mapped_partial",
    "Mlibc.Inet.roundtrip6_partial",
    "Mlibc.Inet.pton6_mapped_violated",
    "Mlibc.Inet.pton6_seven_violated",
    "Mlibc.Inet.pton6_malformed_violated"
   ],
   "note": "IPv4 parsing is exact for strings with at least three dots (shorter ones are read past the end); IPv6 printing is exact except for texts ending in \"::\" that do not fit; IPv6 parsing is proved for all well-formed texts except mapped addresses with a zero octet after a non-zero first one and \"::\" for a single group; malformed IPv6 texts that are accepted are shown by example"
  },
  {
   "property": "C52",
   "status": "partial",
   "theorems": [
    "Mlibc.Calendar.timegm_gmtime",
    "Mlibc.Calendar.gmtime_exact_partial",
    "Mlibc.Calendar.timegm_fields_partial",
    "Mlibc.Calendar.mktime_unchanged",
    "Mlibc.Calendar.isDay_iff",
    "Mlibc.Calendar.yearday_violated",
    "Mlibc.Calendar.negative_violated",
    "Mlibc.Calendar.range_violated",
    "Mlibc.Calendar.mktime_violated"
   ],
   "note": "round trip for all instants whose day fits; date, weekday and time of day exact for instants that are not negative; tm_yday wrong from March on in common years; mktime never normalises"
  },
  {
   "property": "C53",
   "status": "partial",
   "theorems": [
    "Mlibc.Strftime.strftime_exact_partial",
    "Mlibc.Strftime.conv_means",
    "Mlibc.Strftime.strftime_locale",
    "Mlibc.Strftime.restart_violated",
    "Mlibc.Strftime.modifier_violated",
    "Mlibc.Strftime.unknown_violated"
   ],
   "note": "exact for proper broken-down times with four-digit years and formats of literal characters and the 31 known conversions; %c, %x, %X inside a longer format lose the rest; %O and %E before other characters are stored unchecked; other conversions end the program"
  },
  {
   "property": "C56",
   "status": "partial",
   "theorems": [
    "Mlibc.Wordexp.check_exact_partial",
    "Mlibc.Wordexp.check_plain_partial",
    "Mlibc.Wordexp.judge_total",
    "Mlibc.Wordexp.backquote_violated",
    "Mlibc.Wordexp.hidden_violated",
    "Mlibc.Wordexp.dollar_violated"
   ],
   "note": "exact for strings whose quoted characters are no backquotes and that do not end in a dollar sign; backquotes between quotes, command substitutions inside other expansions and a dollar sign at the end are handled wrongly"
  },
  {
   "property": "C57",
   "status": "proved",
   "theorems": [
    "Mlibc.Random.random_exact",
    "Mlibc.Random.value_range",
    "Mlibc.Random.initial_seed",
    "Mlibc.Random.randR_range",
    "Mlibc.Random.randR_injective",
    "Mlibc.Random.step48_exact",
    "Mlibc.Random.words48_exact",
    "Mlibc.Random.jrand48_exact",
    "Mlibc.Random.erand48_exact",
    "Mlibc.Random.srand48_exact"
   ],
   "note": ""
  },
  {
   "property": "C61",
   "status": "partial",
   "theorems": [
    "Mlibc.Realpath.realpath_exact_partial",
    "Mlibc.Realpath.resolve_canonical",
    "Mlibc.Realpath.cycle_violated",
    "Mlibc.Realpath.nested_violated",
    "Mlibc.Realpath.overrun_violated",
    "Mlibc.Realpath.absolute_violated",
    "Mlibc.Realpath.root_violated",
    "Mlibc.Realpath.empty_violated"
   ],
   "note": "exact when the resolution meets no absolute symbolic link and no symbolic link inside another one except at its end, with targets of at most 512 characters; the other cases are shown wrong"
  },
  {
   "property": "C62",
   "status": "partial",
   "theorems": [
    "Mlibc.InitOrder.init_exactly_once",
    "Mlibc.InitOrder.init_after_deps_partial",
    "Mlibc.InitOrder.init_after_all_deps_partial",
    "Mlibc.InitOrder.destructors_reverse_partial",
    "Mlibc.InitOrder.nested_violated",
    "Mlibc.InitOrder.indirect_violated",
    "Mlibc.InitOrder.destructor_opens_violated"
   ],
   "note": "exactly once for all graphs and nested dlopen calls; the order for objects loaded by the program (not by initialisers), for indirect dependencies in acyclic graphs; reverse destruction when destructors load nothing"
  },
  {
   "property": "C66",
   "status": "partial",
   "theorems": [
    "Mlibc.InitOrder.relocated_once_partial",
    "Mlibc.InitOrder.relocated_twice_violated"
   ],
   "note": "an opened object that one of its dependencies needs is relocated twice"
  },
  {
   "property": "C63",
   "status": "partial",
   "theorems": [
    "Mlibc.Tls.tls_layout_partial",
    "Mlibc.Tls.late_exact",
    "Mlibc.Tls.late_alignment_violated",
    "Mlibc.Tls.align_zero_violated"
   ],
   "note": "objects loaded later with a larger alignment than all before are misaligned; alignment 0 overlaps the TCB"
  },
  {
   "property": "C64",
   "status": "partial",
   "theorems": [
    "Mlibc.Symbols.lookup_exact_partial",
    "Mlibc.Symbols.scope_lookup_partial",
    "Mlibc.Symbols.next_exact",
    "Mlibc.Symbols.dlsym_nearest",
    "Mlibc.Symbols.find_ok",
    "Mlibc.Symbols.sysv_utf8_violated",
    "Mlibc.Symbols.gnu_utf8_violated",
    "Mlibc.Symbols.lookup_violated",
    "Mlibc.Symbols.promoted_violated"
   ],
   "note": "names with bytes above 127 are hashed differently from the ABI and not found; an object that becomes global later is invisible to objects that have it in their own scope"
  },
  {
   "property": "C65",
   "status": "partial",
   "theorems": [
    "Mlibc.Scanf.scanf_partial",
    "Mlibc.Scanf.scanset_exact_partial",
    "Mlibc.Scanf.width_violated",
    "Mlibc.Scanf.suppress_width_violated",
    "Mlibc.Scanf.literal_violated",
    "Mlibc.Scanf.scanset_hyphen_violated",
    "Mlibc.Scanf.high_byte_violated",
    "Mlibc.Scanf.zero_violated",
    "Mlibc.Scanf.percent_violated"
   ],
   "note": "whole formats of white space, literals, %d %u %i %o %x %s %c %[ %n with suppression and length modifiers against a specification; widths of %d %u %i %o are ignored by the code, a literal that does not match costs a character, - in a scan set with a range is accepted; %f, %m and the wide functions are not modelled"
  },
  {
   "property": "C67",
   "status": "partial",
   "theorems": [
    "Mlibc.Dns.readName_name",
    "Mlibc.Dns.reply_exact_partial",
    "Mlibc.Dns.reply_nxdomain",
    "Mlibc.Dns.no_reply",
    "Mlibc.Dns.request_exact_partial",
    "Mlibc.Dns.pointer_loop_violated",
    "Mlibc.Dns.long_address_violated",
    "Mlibc.Dns.truncated_violated",
    "Mlibc.Dns.foreign_answer_violated",
    "Mlibc.Dns.stray_datagram_violated",
    "Mlibc.Dns.trailing_dot_violated",
    "Mlibc.Dns.request_violated"
   ],
   "note": "a pointer directly after a label gives a trailing dot; malformed replies overrun the stack or the packet; answers of other names and later datagrams are accepted"
  },
  {
   "property": "C68",
   "status": "partial",
   "theorems": [
    "Mlibc.Strptime.strptime_reads_partial",
    "Mlibc.Strptime.strptime_strftime_partial",
    "Mlibc.Strptime.weekday_partial",
    "Mlibc.Strptime.yday_partial",
    "Mlibc.Strptime.strptime_in_range",
    "Mlibc.Strptime.yday_leap_violated",
    "Mlibc.Strptime.weekday_violated",
    "Mlibc.Strptime.yday_violated",
    "Mlibc.Strptime.day_of_year_violated",
    "Mlibc.Strptime.adjacent_violated",
    "Mlibc.Strptime.century_violated",
    "Mlibc.Strptime.day_number_violated",
    "Mlibc.Strptime.empty_violated"
   ],
   "note": "weekday only modulo 7 (it may be negative); day of the year wrong in leap years; %j, %C with %y, adjacent fields, %u and %w differ"
  },
  {
   "property": "C69",
   "status": "partial",
   "theorems": [
    "Mlibc.Tz.parse_zone",
    "Mlibc.Tz.parse_standard",
    "Mlibc.Tz.parse_summer",
    "Mlibc.Tz.localtime_fixed_partial",
    "Mlibc.Tz.localtime_summer",
    "Mlibc.Tz.getrule_iff",
    "Mlibc.Tz.getoffset_iff",
    "Mlibc.Tz.summer_violated",
    "Mlibc.Tz.day_rule_violated",
    "Mlibc.Tz.rule_time_violated",
    "Mlibc.Tz.dst_name_violated"
   ],
   "note": "parsing is exact except for a summer time name at the end of the text; when summer time begins and ends is computed wrongly, so with summer time only the choice between the two offsets is proved"
  },
  {
   "property": "C70",
   "status": "partial",
   "theorems": [
    "Mlibc.TzFile.lookup_partial",
    "Mlibc.TzFile.localtime_partial",
    "Mlibc.TzFile.outside_violated",
    "Mlibc.TzFile.single_type_violated"
   ],
   "note": "proved between the first and the last transition of files with summer time; outside, and for files without summer time, the code is wrong"
  },
  {
   "property": "C71",
   "status": "partial",
   "theorems": [
    "Mlibc.Group.getgrnam_read_error",
    "Mlibc.Group.getgrnam_exact",
    "Mlibc.Group.getgrgid_exact",
    "Mlibc.Group.getgrent_next",
    "Mlibc.Group.putgrent_round_trip",
    "Mlibc.Group.getgrouplist_exact",
    "Mlibc.Group.initgroups_exact",
    "Mlibc.Group.getgrnam_r_partial",
    "Mlibc.Group.buffer_violated",
    "Mlibc.Group.alignment_violated",
    "Mlibc.Group.not_found_violated",
    "Mlibc.Group.malformed_violated",
    "Mlibc.Group.comma_violated",
    "Mlibc.Group.long_line_violated"
   ],
   "note": "exact for files of entries and of lines with fewer than two colons, lines up to 511 characters; getgrnam_r needs an aligned buffer with room for the password, which the code does not count"
  },
  {
   "property": "C72",
   "status": "partial",
   "theorems": [
    "Mlibc.Passwd.getpwnam_exact",
    "Mlibc.Passwd.getpwuid_exact",
    "Mlibc.Passwd.getpwent_next",
    "Mlibc.Passwd.putpwent_round_trip",
    "Mlibc.Passwd.putpwent_rejects",
    "Mlibc.Passwd.getpw_r_exact",
    "Mlibc.Passwd.malformed_violated"
   ],
   "note": "exact for files of entries and of lines with fewer than six colons, lines up to 511 characters"
  },
  {
   "property": "C73",
   "status": "proved",
   "theorems": [
    "Mlibc.Shadow.getspnam_small",
    "Mlibc.Shadow.getspnam_found",
    "Mlibc.Shadow.getspnam_absent",
    "Mlibc.Shadow.getspnam_refuses",
    "Mlibc.Shadow.putspent_round_trip",
    "Mlibc.Shadow.shadow_violated"
   ],
   "note": "round trip for entries without separators in the texts and without negative numbers; files whose lines end in newlines"
  },
  {
   "property": "C74",
   "status": "partial",
   "theorems": [
    "Mlibc.Exec.execvpe_search_partial",
    "Mlibc.Exec.execvpe_default",
    "Mlibc.Exec.execvpe_slash",
    "Mlibc.Exec.outcome_unique",
    "Mlibc.Exec.execle_exact",
    "Mlibc.Exec.execlp_exact",
    "Mlibc.Exec.execl_partial",
    "Mlibc.Exec.execl_violated",
    "Mlibc.Exec.empty_entry_violated"
   ],
   "note": "PATH without empty entries; execl up to 14 arguments"
  },
  {
   "property": "C75",
   "status": "partial",
   "theorems": [
    "Mlibc.Getcwd.getcwd_partial",
    "Mlibc.Getcwd.getcwd_allocates",
    "Mlibc.Getcwd.getcwd_no_size",
    "Mlibc.Getcwd.boundary_violated"
   ],
   "note": "no end of the path that begins with a slash is exactly as long as the buffer"
  },
  {
   "property": "C76",
   "status": "partial",
   "theorems": [
    "Mlibc.Spawn.posix_spawn_partial",
    "Mlibc.Spawn.posix_spawn_no_pipe",
    "Mlibc.Spawn.add_spec",
    "Mlibc.Spawn.cloexec_violated",
    "Mlibc.Spawn.fork_failure_violated"
   ],
   "note": "see the statement for O_CLOEXEC and for a failing fork"
  },
  {
   "property": "C77",
   "status": "partial",
   "theorems": [
    "Mlibc.Fork.fork_handlers_partial",
    "Mlibc.Fork.fork_single_thread",
    "Mlibc.Fork.other_thread_violated",
    "Mlibc.Fork.failure_violated"
   ],
   "note": "handlers registered by the forking thread"
  },
  {
   "property": "C78",
   "status": "partial",
   "theorems": [
    "Mlibc.Ftw.nftw_partial",
    "Mlibc.Ftw.nftw_visits",
    "Mlibc.Ftw.walk_mem",
    "Mlibc.Ftw.walk_order",
    "Mlibc.Ftw.walk_stable",
    "Mlibc.Ftw.descriptors_partial",
    "Mlibc.Ftw.nftw_trivial",
    "Mlibc.Ftw.cycle_violated",
    "Mlibc.Ftw.limit_violated",
    "Mlibc.Ftw.stop_violated"
   ],
   "note": "directories deeper than the limit on descriptors are not entered; descriptors leak at cycles and when the function ends the walk at a directory"
  },
  {
   "property": "C79",
   "status": "partial",
   "theorems": [
    "Mlibc.Getopt.Long.getopt_long_partial",
    "Mlibc.Getopt.Long.missing_argument",
    "Mlibc.Getopt.Long.longFind_means",
    "Mlibc.Getopt.Long.longFind_wrong",
    "Mlibc.Getopt.Long.extra_argument_violated",
    "Mlibc.Getopt.Long.synonyms_violated"
   ],
   "note": "short options as in C23; without W; and getopt_long_only; a refused argument reports a colon as for a missing one and does not set optopt"
  },
  {
   "property": "C80",
   "status": "partial",
   "theorems": [
    "Mlibc.Conc.Cancel.cancelled_asked",
    "Mlibc.Conc.Cancel.disabled_safe",
    "Mlibc.Conc.Cancel.deferred_points",
    "Mlibc.Conc.Cancel.request_seen",
    "Mlibc.Conc.Cancel.sleeper_woken",
    "Mlibc.Conc.Cancel.async_signalled",
    "Mlibc.Conc.Cancel.handler_cancels",
    "Mlibc.Conc.Cancel.previous_returned",
    "Mlibc.Conc.Cancel.ends_joinable_partial",
    "Mlibc.Conc.Cancel.joinable_all_run",
    "Mlibc.Conc.Cancel.effect_lost_violated",
    "Mlibc.Conc.Cancel.cleanup_violated",
    "Mlibc.Conc.Cancel.inherited_violated"
   ],
   "note": "a call that has taken effect can be lost; a cancellation point in a cleanup handler ends the thread without the other handlers, and join hangs; threads created while the signal is blocked are not interrupted"
  },
  {
   "property": "C81",
   "status": "partial",
   "theorems": [
    "Mlibc.Dirent.stream_is_position",
    "Mlibc.Dirent.reads_all",
    "Mlibc.Dirent.seek_resumes",
    "Mlibc.Dirent.scandir_partial",
    "Mlibc.Dirent.read_error_violated",
    "Mlibc.Dirent.select_errno_violated"
   ],
   "note": "a read error ends the process; scandir fails if the select function sets errno, and never closes its stream"
  },
  {
   "property": "C82",
   "status": "partial",
   "theorems": [
    "Mlibc.Mntent.readLine_room",
    "Mlibc.Mntent.getmntent_partial",
    "Mlibc.Mntent.getmntent_end",
    "Mlibc.Mntent.add_get",
    "Mlibc.Mntent.hasmntopt_partial",
    "Mlibc.Mntent.hasmntopt_violated",
    "Mlibc.Mntent.add_space_violated",
    "Mlibc.Mntent.escape_violated",
    "Mlibc.Mntent.last_line_violated",
    "Mlibc.Mntent.stale_violated",
    "Mlibc.Mntent.high_byte_violated"
   ],
   "note": "options are searched as substrings; white space is not escaped on writing nor decoded on reading; a last line without newline is lost; numbers of a comment leak into the next entry; a byte above 127 ends the process"
  },
  {
   "property": "C83",
   "status": "partial",
   "theorems": [
    "Mlibc.Syslog.syslog_partial",
    "Mlibc.Syslog.setlogmask_previous",
    "Mlibc.Syslog.masked_silent",
    "Mlibc.Syslog.mask_violated",
    "Mlibc.Syslog.emergency_violated",
    "Mlibc.Syslog.setlogmask_zero_violated",
    "Mlibc.Syslog.options_violated",
    "Mlibc.Syslog.fallback_violated"
   ],
   "note": "the mask is applied to the priority as a number as well, so that messages it includes are dropped; a mask of 0 is stored; the options are ignored; after one failing connect no message is sent any more"
  },
  {
   "property": "C84",
   "status": "partial",
   "theorems": [
    "Mlibc.Services.getservbyname_partial",
    "Mlibc.Services.getservbyport_partial",
    "Mlibc.Services.numeric_service",
    "Mlibc.Services.other_proto_violated",
    "Mlibc.Services.alias_violated",
    "Mlibc.Services.numeric_violated",
    "Mlibc.Services.big_port_violated",
    "Mlibc.Services.udplite_violated",
    "Mlibc.Services.digits_violated",
    "Mlibc.Services.stale_violated",
    "Mlibc.Services.long_line_violated"
   ],
   "note": "protocols other than tcp and udp are not known; an alias is given as the official name; a numeric name is undefined behaviour; ports are cut to 32 and to 16 bits; a port that occurs as digits in the name is not found; comments leave stale bytes that are parsed; lines over 127 bytes are two lines"
  },
  {
   "property": "C85",
   "status": "partial",
   "theorems": [
    "Mlibc.Hosts.lookupName_partial",
    "Mlibc.Hosts.lookupAddr_partial",
    "Mlibc.Hosts.comment_violated",
    "Mlibc.Hosts.trailing_violated",
    "Mlibc.Hosts.last_line_violated",
    "Mlibc.Hosts.prefix_violated"
   ],
   "note": "a comment after the names makes the lookup loop for ever; trailing space gives an empty alias or loops, depending on stale bytes; a last line without newline is not seen; 1.2.3.4 is found on the line of 1.2.3.45"
  },
  {
   "property": "C86",
   "status": "partial",
   "theorems": [
    "Mlibc.AddrInfo.getaddrinfo_partial",
    "Mlibc.AddrInfo.getaddrinfo_numeric",
    "Mlibc.AddrInfo.getaddrinfo_bad",
    "Mlibc.AddrInfo.getaddrinfo_none",
    "Mlibc.AddrInfo.getnameinfo_host",
    "Mlibc.AddrInfo.getnameinfo_serv_partial",
    "Mlibc.AddrInfo.gethostbyname_partial",
    "Mlibc.AddrInfo.loopback_violated",
    "Mlibc.AddrInfo.addrconfig_violated",
    "Mlibc.AddrInfo.unknown_service_violated",
    "Mlibc.AddrInfo.v4mapped_violated",
    "Mlibc.AddrInfo.numericserv_violated",
    "Mlibc.AddrInfo.gethostbyname_violated"
   ],
   "note": "the IPv4 loopback address is 1.0.0.127; AI_ADDRCONFIG overrides the family asked for; an unknown service gives success and an invalid pointer; AI_V4MAPPED does nothing; NI_NUMERICSERV is the same bit as NI_NUMERICHOST; gethostbyname can give IPv6 addresses only"
  },
  {
   "property": "C87",
   "status": "partial",
   "theorems": [
    "Mlibc.Proto.history_partial",
    "Mlibc.Proto.no_leak",
    "Mlibc.Proto.rewind_violated",
    "Mlibc.Proto.no_alias_violated",
    "Mlibc.Proto.loop_violated"
   ],
   "note": "setprotoent and endprotoent do not rewind; entries without aliases are not seen; a line over 255 bytes or a last line without newline makes the search loop for ever"
  },
  {
   "property": "C88",
   "status": "proved",
   "theorems": [
    "Mlibc.Wchar.wcwidth_exact",
    "Mlibc.Wchar.wcswidth_exact",
    "Mlibc.Wchar.intable_spec",
    "Mlibc.Wchar.wcsncasecmp_sign",
    "Mlibc.Wchar.wcscasecmp_sign",
    "Mlibc.Wchar.wcsncasecmp_same",
    "Mlibc.Wchar.wcslcat_exact",
    "Mlibc.Wchar.wcpcpy_exact",
    "Mlibc.Wchar.wcpncpy_exact",
    "Mlibc.Wchar.wcsdup_exact",
    "Mlibc.Wchar.wcslcpy_exact"
   ],
   "note": "the tables of intervals are data: that they agree with Unicode is not claimed; wcswidth for strings whose sum fits an int"
  },
  {
   "property": "C89",
   "status": "partial",
   "theorems": [
    "Mlibc.Locale.parse_text",
    "Mlibc.Locale.parse_wellFormed",
    "Mlibc.Locale.build_spec",
    "Mlibc.Locale.build_head",
    "Mlibc.Locale.setlocale_query",
    "Mlibc.Locale.setlocale_category",
    "Mlibc.Locale.setlocale_all",
    "Mlibc.Locale.setlocale_env",
    "Mlibc.Locale.setlocale_env_all",
    "Mlibc.Locale.setlocale_restore",
    "Mlibc.Locale.find_again",
    "Mlibc.Locale.save_restore",
    "Mlibc.Locale.newlocale_mask",
    "Mlibc.Locale.newlocale_spec",
    "Mlibc.Locale.failed_all_violated",
    "Mlibc.Locale.single_env_violated",
    "Mlibc.Locale.lc_all_env_violated",
    "Mlibc.Locale.bad_category_violated",
    "Mlibc.Locale.newlocale_env_violated",
    "Mlibc.Locale.newlocale_base_violated",
    "Mlibc.Locale.semicolon_violated",
    "Mlibc.Locale.composite_end_violated"
   ],
   "note": "save_restore needs names without \";\" whose codeset is a number or has a letter, records of the archive that have all categories and no directory called \"\", \"C\" or \"POSIX\"; where the code departs from C and POSIX (failing calls for all categories, setlocale(category, \"\") for one category, newlocale with \"\") the violations are proved"
  },
  {
   "property": "C90",
   "status": "partial",
   "theorems": [
    "Mlibc.Strtod.strtofp_numeral",
    "Mlibc.Strtod.strtofp_exact",
    "Mlibc.Strtod.integer_exact",
    "Mlibc.Strtod.hex_exact",
    "Mlibc.Strtod.b64_binary64",
    "Mlibc.Strtod.round64_rep",
    "Mlibc.Strtod.strtofp_inf_partial",
    "Mlibc.Strtod.strtofp_nan_partial",
    "Mlibc.Strtod.exponent_overflow_violated",
    "Mlibc.Strtod.correct_rounding_violated",
    "Mlibc.Strtod.intermediate_overflow_violated",
    "Mlibc.Strtod.no_conversion_violated",
    "Mlibc.Strtod.lone_point_violated",
    "Mlibc.Strtod.hex_prefix_violated",
    "Mlibc.Strtod.inf_word_violated"
   ],
   "note": "decimal fractions are not rounded correctly (correct_rounding_violated), so for them only the end pointer and the exact value of the algorithm are proved; ERANGE is never set by the code and errno is not modelled"
  },
  {
   "property": "C91",
   "status": "partial",
   "theorems": [
    "Mlibc.Utmp.history_partial",
    "Mlibc.Utmp.getEntry_ok",
    "Mlibc.Utmp.getEntry_end",
    "Mlibc.Utmp.utmpname_partial",
    "Mlibc.Utmp.replace_violated",
    "Mlibc.Utmp.line_type_violated",
    "Mlibc.Utmp.id_type_violated",
    "Mlibc.Utmp.torn_write_violated",
    "Mlibc.Utmp.torn_read_violated",
    "Mlibc.Utmp.utmpname_violated"
   ],
   "note": "pututxline always appends (replace_violated); matching agrees with POSIX only when the query has a suitable type and no record of another type has its id or line (line_type_violated, id_type_violated); a read or write that fails inside a record breaks the sequence (torn_read_violated, torn_write_violated)"
  },
  {
   "property": "C92",
   "status": "partial",
   "theorems": [
    "Mlibc.Shell.popen_partial",
    "Mlibc.Shell.popen_fails",
    "Mlibc.Shell.pclose_partial",
    "Mlibc.Shell.pclose_fails",
    "Mlibc.Shell.system_partial",
    "Mlibc.Shell.system_other",
    "Mlibc.Shell.dup2_partial",
    "Mlibc.Shell.history_partial",
    "Mlibc.Shell.kids_partial",
    "Mlibc.Shell.earlier_partial",
    "Mlibc.Shell.popen_closed_violated",
    "Mlibc.Shell.popen_closed_panics",
    "Mlibc.Shell.popen_earlier_violated",
    "Mlibc.Shell.pclose_interrupted_violated",
    "Mlibc.Shell.system_interrupted_violated",
    "Mlibc.Shell.dup2_self_violated"
   ],
   "note": "missing because the code violates it: callers with closed standard descriptors, streams of earlier calls without e in the mode, waits interrupted by a signal, dup2 of equal numbers on Linux"
  },
  {
   "property": "C93",
   "status": "proved",
   "theorems": [
    "Mlibc.Vector.strcmp_spec"
   ],
   "note": "the vector instructions are modelled from their documentation"
  },
  {
   "property": "C94",
   "status": "partial",
   "theorems": [
    "Mlibc.Version.strverscmp_order",
    "Mlibc.Version.strverscmp_numbers",
    "Mlibc.Version.strverscmp_bytes",
    "Mlibc.Version.strverscmp_zeros",
    "Mlibc.Version.strverscmp_zero_first",
    "Mlibc.Version.strverscmp_mixed_partial",
    "Mlibc.Version.strverscmp_mixed_violated",
    "Mlibc.Version.strverscmp_fraction_violated"
   ],
   "note": "missing because the code violates it: a nonzero digit against a byte above the digits is not decided by the order of bytes; a fraction that ends before such a byte comes after its continuations"
  },
  {
   "property": "C95",
   "status": "partial",
   "theorems": [
    "Mlibc.Load.fetch_partial",
    "Mlibc.Load.fetch_rejects",
    "Mlibc.Load.headers_fields",
    "Mlibc.Load.fetch_truncated",
    "Mlibc.Load.highest_span",
    "Mlibc.Load.loads_partial",
    "Mlibc.Load.bss_violated",
    "Mlibc.Load.null_violated",
    "Mlibc.Load.malformed_violated"
   ],
   "note": "missing because the code violates it: segments of zeros only on a page boundary and headers of type PT_NULL stop the program; malformed program headers are not refused"
  },
  {
   "property": "C96",
   "status": "partial",
   "theorems": [
    "Mlibc.Find.search_partial",
    "Mlibc.Find.known_spec",
    "Mlibc.Find.again_spec",
    "Mlibc.Find.againPath_spec",
    "Mlibc.Find.path_partial",
    "Mlibc.Find.parseList_dirs",
    "Mlibc.Find.dirs_exist",
    "Mlibc.Find.secure_spec",
    "Mlibc.Find.runPathOf_spec",
    "Mlibc.Find.startup_spec",
    "Mlibc.Find.dlopen_spec",
    "Mlibc.Find.order_violated",
    "Mlibc.Find.empty_violated",
    "Mlibc.Find.slash_violated",
    "Mlibc.Find.twice_violated",
    "Mlibc.Find.preload_violated",
    "Mlibc.Find.path_violated",
    "Mlibc.Find.noload_violated"
   ],
   "note": "missing because the code violates it: DT_RUNPATH comes before LD_LIBRARY_PATH; empty entries are read out of bounds; names with slashes are searched; links to a loaded file and preloaded libraries are loaded twice; dlopen of a path may give another file"
  },
  {
   "property": "C97",
   "status": "partial",
   "theorems": [
    "Mlibc.Setjmp.x64_jumps_partial",
    "Mlibc.Setjmp.x64_sig_partial",
    "Mlibc.Setjmp.x86_jumps",
    "Mlibc.Setjmp.x86_sig",
    "Mlibc.Setjmp.arm_jumps",
    "Mlibc.Setjmp.arm_sig",
    "Mlibc.Setjmp.riscv_jumps",
    "Mlibc.Setjmp.riscv_sig",
    "Mlibc.Setjmp.loong_jumps",
    "Mlibc.Setjmp.loong_sig",
    "Mlibc.Setjmp.m68k_jumps_partial",
    "Mlibc.Setjmp.mask_spec",
    "Mlibc.Setjmp.mask_setjmp",
    "Mlibc.Setjmp.x64_violated",
    "Mlibc.Setjmp.m68k_violated"
   ],
   "note": "missing because the code violates it: on x86-64 the high half of the register of the value is tested too; on m68k the floating point registers are not saved. Not modelled: sigsetjmp on m68k"
  },
  {
   "property": "C98",
   "status": "partial",
   "theorems": [
    "Mlibc.Fenv.x64_clear",
    "Mlibc.Fenv.x64_ok",
    "Mlibc.Fenv.x86_clear",
    "Mlibc.Fenv.x86_ok",
    "Mlibc.Fenv.arm_clear",
    "Mlibc.Fenv.arm_ok",
    "Mlibc.Fenv.riscv_clear",
    "Mlibc.Fenv.riscv_ok",
    "Mlibc.Fenv.loong_clear",
    "Mlibc.Fenv.loong_ok",
    "Mlibc.Fenv.m68k_clear",
    "Mlibc.Fenv.m68k_ok",
    "Mlibc.Fenv.fesetround_spec",
    "Mlibc.Fenv.fegetexceptflag_spec",
    "Mlibc.Fenv.fesetexceptflag_spec",
    "Mlibc.Fenv.fesetexceptflag_fegetexceptflag",
    "Mlibc.Fenv.feholdexcept_spec",
    "Mlibc.Fenv.feupdateenv_spec",
    "Mlibc.Fenv.feupdateenv_default",
    "Mlibc.Fenv.mode_always",
    "Mlibc.Fenv.x87_clear_partial",
    "Mlibc.Fenv.x87_clear_violated",
    "Mlibc.Fenv.fegetenv_masks_violated",
    "Mlibc.Fenv.m68k_overflow_violated"
   ],
   "note": "missing because the code violates it: feclearexcept on x86 without SSE clears too much; fegetenv masks exceptions of the x87; fegetenv on m68k writes past the end of fenv_t. Traps are not modelled"
  },
  {
   "property": "C99",
   "status": "partial",
   "theorems": [
    "Mlibc.Fnmatch.fnmatch_partial",
    "Mlibc.Fnmatch.contains_spec",
    "Mlibc.Fnmatch.suffix_spec",
    "Mlibc.Fnmatch.internal_spec",
    "Mlibc.Fnmatch.matchBracket_set",
    "Mlibc.Fnmatch.sea_spec",
    "Mlibc.Fnmatch.collating_violated",
    "Mlibc.Fnmatch.range_minus_violated",
    "Mlibc.Fnmatch.escaped_period_violated",
    "Mlibc.Fnmatch.bracket_slash_violated",
    "Mlibc.Fnmatch.range_utf8_violated",
    "Mlibc.Fnmatch.invalid_rest_violated",
    "Mlibc.Fnmatch.hang_violated"
   ],
   "note": "proved for all patterns and strings of the portable character set without collating symbols and equivalence classes. Missing because the code violates it: collating symbols, a range that ends with a minus sign, an escaped leading period, a slash in a bracket expression, ranges of multibyte characters, and bytes that are not characters"
  },
  {
   "property": "C100",
   "status": "proved",
   "theorems": [
    "Mlibc.Math.floor_spec",
    "Mlibc.Math.ceil_spec",
    "Mlibc.Math.floorf_spec",
    "Mlibc.Math.ceilf_spec",
    "Mlibc.Math.trunc_spec",
    "Mlibc.Math.trunc_same",
    "Mlibc.Math.floor_same",
    "Mlibc.Math.round_spec",
    "Mlibc.Math.rint_spec",
    "Mlibc.Math.modf_spec",
    "Mlibc.Math.modf_special",
    "Mlibc.Math.lrint_spec",
    "Mlibc.Math.lround_spec",
    "Mlibc.Math.chosen_unique",
    "Mlibc.Math.bits_ext"
   ],
   "note": "for every format with the shape of double and float (double_ok, float_ok); sums are modelled as IEEE sums in the type itself (FLT_EVAL_METHOD 0), and the exceptions raised are not modelled"
  },
  {
   "property": "C101",
   "status": "proved",
   "theorems": [
    "Mlibc.Math.fmod_spec",
    "Mlibc.Math.fmod_special",
    "Mlibc.Math.remquo_spec",
    "Mlibc.Math.remquo_special",
    "Mlibc.Math.zeroEx_ok"
   ],
   "note": "for every format with the shape of double and float; the value of the NaN results and the exceptions raised are not modelled"
  },
  {
   "property": "C102",
   "status": "partial",
   "theorems": [
    "Mlibc.Math.roundTo_spec",
    "Mlibc.Math.rounded_unique",
    "Mlibc.Math.fmul_spec",
    "Mlibc.Math.scalbn_spec",
    "Mlibc.Math.scalbn_special",
    "Mlibc.Math.scalbln_spec",
    "Mlibc.Math.fpclassify_spec",
    "Mlibc.Math.fabs_spec",
    "Mlibc.Math.copysign_spec",
    "Mlibc.Math.fmax_spec",
    "Mlibc.Math.fmin_spec",
    "Mlibc.Math.nextafter_spec",
    "Mlibc.Math.fdim_spec",
    "Mlibc.Math.frexp_spec",
    "Mlibc.Math.frexp_special",
    "Mlibc.Math.ilogb_spec",
    "Mlibc.Math.logb_spec",
    "Mlibc.Math.significand_partial",
    "Mlibc.Math.significand_violated"
   ],
   "note": "all functions as stated; partial because significand of a zero or a NaN negates INT_MIN, proved in significand_violated"
  },
  {
   "property": "C103",
   "status": "partial",
   "theorems": [
    "Mlibc.Math.sqrtf_spec",
    "Mlibc.Math.sqrtf_special",
    "Mlibc.Math.sqrt_partial",
    "Mlibc.Math.sqrt_normal",
    "Mlibc.Math.sqrt_special",
    "Mlibc.Math.sqrt_violated"
   ],
   "note": "sqrtf and sqrt of normal numbers as stated; sqrt of some subnormal numbers shifts a word by 32, which C does not define, and the root is right on machines where this gives zero or the word"
  },
  {
   "property": "C104",
   "status": "partial",
   "theorems": [
    "Mlibc.Glob.glob_spec",
    "Mlibc.Glob.every_pattern",
    "Mlibc.Glob.glob_nomatch_partial",
    "Mlibc.Glob.glob_aborted_partial",
    "Mlibc.Glob.glob_aborted_violated"
   ],
   "note": "as stated when 0 is returned; when the search is stopped before something was found, GLOB_NOMATCH is returned instead of GLOB_ABORTED"
  },
  {
   "property": "C105",
   "status": "partial",
   "theorems": [
    "Mlibc.Utf8.mblen_call",
    "Mlibc.Utf8.mblen_null",
    "Mlibc.Utf8.mblen_history_partial",
    "Mlibc.Utf8.mblen_sticky_violated",
    "Mlibc.Utf8.mblen_zero_violated",
    "Mlibc.Utf8.mbtowc_call_partial",
    "Mlibc.Utf8.mbtowc_history_partial",
    "Mlibc.Utf8.mbtowc_incomplete_violated",
    "Mlibc.Utf8.mbtowc_reset_violated",
    "Mlibc.Utf8.wctomb_history",
    "Mlibc.Utf8.mbstowcs_fits",
    "Mlibc.Utf8.mbstowcs_limit",
    "Mlibc.Utf8.mbstowcs_illformed",
    "Mlibc.Utf8.mbstowcs_len",
    "Mlibc.Utf8.mbstowcs_len_illformed",
    "Mlibc.Utf8.mbstowcs_zero_limit_violated",
    "Mlibc.Utf8.wcstombs_memoryless",
    "Mlibc.Utf8.wcstombs_fits",
    "Mlibc.Utf8.wcstombs_len",
    "Mlibc.Utf8.wcstombs_cut_violated",
    "Mlibc.Utf8.mbrtoc32_call",
    "Mlibc.Utf8.mbrtoc32_zero_violated",
    "Mlibc.Utf8.c32_roundtrip"
   ],
   "note": "holds for histories without truncated characters; the treatment of truncated characters, of limits of 0 and of characters that do not fit is wrong"
  },
  {
   "property": "C106",
   "status": "partial",
   "theorems": [
    "Mlibc.Reloc.link_meets_partial",
    "Mlibc.Reloc.link_succeeds",
    "Mlibc.Reloc.unresolved_panics",
    "Mlibc.Reloc.relr_exact",
    "Mlibc.Reloc.allocDtv_sound",
    "Mlibc.Reloc.tls_get_addr_spec",
    "Mlibc.Reloc.plt_partial",
    "Mlibc.Reloc.symbolic_plt_violated",
    "Mlibc.Reloc.symbolic_tlsdesc_violated",
    "Mlibc.Reloc.irelative_library_violated"
   ],
   "note": "DT_SYMBOLIC is ignored by PLT slots and TLS descriptors; indirect relative records of libraries outside the PLT table are not applied"
  },
  {
   "property": "C107",
   "status": "partial",
   "theorems": [
    "Mlibc.Collate.strcoll_partial",
    "Mlibc.Collate.strcoll_order",
    "Mlibc.Collate.strxfrm_partial",
    "Mlibc.Collate.strcoll_mixed_violated",
    "Mlibc.Collate.strcoll_position_violated",
    "Mlibc.Collate.strxfrm_position_violated",
    "Mlibc.Collate.strxfrm_one_violated"
   ],
   "note": "needs one direction per pass and the position flag everywhere or nowhere in a pass; for strxfrm also two passes, and the flag in the last pass only, with weights of one length; the lookup of an element is a parameter; the C locale is not covered"
  },
  {
   "property": "C108",
   "status": "partial",
   "theorems": [
    "Mlibc.Ctype.c_isw",
    "Mlibc.Ctype.c_is",
    "Mlibc.Ctype.isascii_partial",
    "Mlibc.Ctype.isascii_violated",
    "Mlibc.Ctype.c_tolower_toupper",
    "Mlibc.Ctype.c_towlower_towupper",
    "Mlibc.Ctype.c_wctype",
    "Mlibc.Ctype.c_wctype_unknown",
    "Mlibc.Ctype.c_towctrans",
    "Mlibc.Ctype.iswctype_weof",
    "Mlibc.Ctype.class_lookup",
    "Mlibc.Ctype.map_lookup",
    "Mlibc.Ctype.isw_def",
    "Mlibc.Ctype.iswctype_partial",
    "Mlibc.Ctype.iswctype_isw",
    "Mlibc.Ctype.wctype_unknown",
    "Mlibc.Ctype.tow_def",
    "Mlibc.Ctype.towctrans_def",
    "Mlibc.Ctype.wctrans_unknown",
    "Mlibc.Ctype.is_def",
    "Mlibc.Ctype.to_def",
    "Mlibc.Ctype.to_l_partial",
    "Mlibc.Ctype.is_l_partial",
    "Mlibc.Ctype.tolower_l_violated",
    "Mlibc.Ctype.isalpha_l_eof_violated",
    "Mlibc.Ctype.iswctype_many_violated"
   ],
   "note": "isascii is wrong outside -128..255; the _l variants are right for ASCII but not for EOF and other bytes; iswctype reads out of bounds from the fifteenth class on"
  },
  {
   "property": "C109",
   "status": "partial",
   "theorems": [
    "Mlibc.Regex.regexec_iff",
    "Mlibc.Regex.regexec_regcomp_partial",
    "Mlibc.Regex.empty_path_violated",
    "Mlibc.Regex.empty_path_rep_violated",
    "Mlibc.Regex.nested_counts_violated",
    "Mlibc.Regex.dropped_atom_violated"
   ],
   "note": "wrong if an assertion is on one of several empty paths, and if counted repetitions are nested three deep; sub-match offsets and back references are not covered"
  },
  {
   "property": "C110",
   "status": "partial",
   "theorems": [
    "Mlibc.Regex.regcomp_text_partial",
    "Mlibc.Regex.parse_gram",
    "Mlibc.Regex.bracket_pos",
    "Mlibc.Regex.bracket_neg",
    "Mlibc.Regex.parse_halts",
    "Mlibc.Regex.text_violated"
   ],
   "note": "regcomp_text_partial needs the two conditions of C109, which the code needs; REG_ICASE is not covered; basic regular expressions: C117"
  },
  {
   "property": "C111",
   "status": "proved",
   "theorems": [
    "Mlibc.Atomic8.atomic_linearizable",
    "Mlibc.Atomic8.atomic_value",
    "Mlibc.Atomic8.atomic_progress"
   ],
   "note": "sequentially consistent interleavings; the lock itself is C42"
  },
  {
   "property": "C112",
   "status": "partial",
   "theorems": [
    "Mlibc.Archive.archive_lookup",
    "Mlibc.Archive.archive_category",
    "Mlibc.Archive.category_fields_partial",
    "Mlibc.Archive.field_exact",
    "Mlibc.Archive.words_bounded",
    "Mlibc.Archive.findRecord_safe",
    "Mlibc.Archive.members_safe",
    "Mlibc.Archive.archive_safe_partial",
    "Mlibc.Archive.archive_safe_violated",
    "Mlibc.Archive.archive_ends_violated",
    "Mlibc.Archive.strList_violated",
    "Mlibc.Archive.unterminated_violated"
   ],
   "note": "lookup and fields hold for all archives localedef writes, except lists of strings of the least length; the code reads outside archives shorter than 108 bytes, does not end on a full table, and accepts texts without an end"
  },
  {
   "property": "C113",
   "status": "partial",
   "theorems": [
    "Mlibc.Timeval.timeradd_partial",
    "Mlibc.Timeval.timersub_partial",
    "Mlibc.Timeval.timercmp_spec",
    "Mlibc.Timeval.timerisset_spec",
    "Mlibc.Timeval.settimeofday_partial",
    "Mlibc.Timeval.gettimeofday_spec",
    "Mlibc.Timeval.timeradd_violated",
    "Mlibc.Timeval.timersub_violated",
    "Mlibc.Timeval.settimeofday_violated"
   ],
   "note": "exact except where the seconds overflow before the carry or borrow; negative microseconds are not refused"
  },
  {
   "property": "C114",
   "status": "partial",
   "theorems": [
    "Mlibc.Writev.writev_partial",
    "Mlibc.Writev.writev_violated",
    "Mlibc.Writev.writev_negative_violated"
   ],
   "note": "for every positive number of buffers; without buffers the process is ended"
  },
  {
   "property": "C115",
   "status": "partial",
   "theorems": [
    "Mlibc.Versions.verdef_spec",
    "Mlibc.Versions.verneed_spec_partial",
    "Mlibc.Versions.verneed_missing",
    "Mlibc.Versions.version_binding",
    "Mlibc.Versions.image_binding",
    "Mlibc.Versions.missing_violated",
    "Mlibc.Versions.weak_violated"
   ],
   "note": "exact for tables without weak requirements; a missing version and a weak requirement end the program"
  },
  {
   "property": "C116",
   "status": "partial",
   "theorems": [
    "Mlibc.Strfmon.strfmon_safe_partial",
    "Mlibc.Strfmon.strfmon_layout_partial",
    "Mlibc.Strfmon.room_violated",
    "Mlibc.Strfmon.negative_violated",
    "Mlibc.Strfmon.sign_lost_violated",
    "Mlibc.Strfmon.fill_violated",
    "Mlibc.Strfmon.positive_violated",
    "Mlibc.Strfmon.width_violated",
    "Mlibc.Strfmon.silent_violated",
    "Mlibc.Strfmon.truncated_violated",
    "Mlibc.Strfmon.huge_violated"
   ],
   "note": "safety for all formats; the layout of one conversion without left precision where the code conforms, each hypothesis is needed; print_float is a parameter"
  },
  {
   "property": "C117",
   "status": "partial",
   "theorems": [
    "Mlibc.Regex.bregcomp_text_partial",
    "Mlibc.Regex.bparse_gram",
    "Mlibc.Regex.bparse_halts",
    "Mlibc.Regex.btext_violated"
   ],
   "note": "bregcomp_text_partial needs the two conditions of C109, which the code needs; back references and REG_ICASE are not covered"
  },
  {
   "property": "C118",
   "status": "partial",
   "theorems": [
    "Mlibc.Temp.mkostemps_creates",
    "Mlibc.Temp.mkostemps_invalid",
    "Mlibc.Temp.mkostemps_distinct",
    "Mlibc.Temp.mkdtemp_creates",
    "Mlibc.Temp.mkdtemp_invalid_partial",
    "Mlibc.Temp.tmpfile_unnamed",
    "Mlibc.Temp.tmpnam_partial",
    "Mlibc.Temp.mkdtemp_short_violated",
    "Mlibc.Temp.tmpfile_errno_violated",
    "Mlibc.Temp.tmpnam_violated"
   ],
   "note": "mkdtemp aborts for a text of fewer than six characters, tmpfile fails without errno, tmpnam takes a file that may not be read for a free name"
  },
  {
   "property": "C119",
   "status": "proved",
   "theorems": [
    "Mlibc.FdSet.fdset_history"
   ],
   "note": ""
  },
  {
   "property": "C120",
   "status": "partial",
   "theorems": [
    "Mlibc.SigName.str2sig_exact_partial",
    "Mlibc.SigName.sig_roundtrip",
    "Mlibc.SigName.str2sig_overflow_violated",
    "Mlibc.SigName.str2sig_lax_violated"
   ],
   "note": "the round trip holds; str2sig overflows for RTMIN+9223372036854775807 and takes an empty number, spaces and signs"
  },
  {
   "property": "C121",
   "status": "partial",
   "theorems": [
    "Mlibc.Attr.attr_results",
    "Mlibc.Attr.attr_history",
    "Mlibc.Attr.affinity_read_partial",
    "Mlibc.Attr.create_partial",
    "Mlibc.Attr.create_default",
    "Mlibc.Attr.mutexattr_history",
    "Mlibc.Attr.condattr_history",
    "Mlibc.Attr.affinity_violated",
    "Mlibc.Attr.guard_violated",
    "Mlibc.Attr.reported_violated",
    "Mlibc.Attr.create_ignores_violated"
   ],
   "note": "histories and results hold; a processor set read into a longer buffer is lost, a guard size that is no multiple of the page makes pthread_create fail, the reported stack contains the guard instead of the top, and mask, processors and scheduling are ignored"
  },
  {
   "property": "C122",
   "status": "partial",
   "theorems": [
    "Mlibc.Wide.fgetwc_char",
    "Mlibc.Wide.fgetwc_end",
    "Mlibc.Wide.fgetwc_bad",
    "Mlibc.Wide.fgetws_line_partial",
    "Mlibc.Wide.ungetwc_then_fgetwc_partial",
    "Mlibc.Wide.ungetwc_weof",
    "Mlibc.Wide.fputwc_writes",
    "Mlibc.Wide.fputwc_full_partial",
    "Mlibc.Wide.fputwc_invalid_partial",
    "Mlibc.Wide.fputwc_surrogate_violated",
    "Mlibc.Wide.fputws_writes_partial",
    "Mlibc.Wide.wide_roundtrip_partial",
    "Mlibc.Wide.byte_oriented",
    "Mlibc.Wide.fwide_spec",
    "Mlibc.Wide.fgetws_pointer_violated",
    "Mlibc.Wide.fgetws_end_violated",
    "Mlibc.Wide.fgetws_stale_violated",
    "Mlibc.Wide.ungetwc_violated",
    "Mlibc.Wide.fputwc_ascii_violated",
    "Mlibc.Wide.fputws_violated",
    "Mlibc.Wide.fputws_full_violated"
   ],
   "note": "characters and lines are right; the code returns a pointer behind the line, no null pointer at the end of the file, ends the process when a character lies across byte 512, and reports success on a full device"
  },
  {
   "property": "C123",
   "status": "proved",
   "theorems": [
    "Mlibc.Lockf.lockf_history",
    "Mlibc.Lockf.lockf_exclusive",
    "Mlibc.Lockf.lockf_answers"
   ],
   "note": "refinement of the record locks of the kernel (a relation) to the bytes each process has locked, for every history; closing of files, deadlock detection and offsets out of range are not modelled"
  },
  {
   "property": "C124",
   "status": "partial",
   "theorems": [
    "Mlibc.Termios.cfsetospeed_spec",
    "Mlibc.Termios.cfsetispeed_result",
    "Mlibc.Termios.speeds_output_partial",
    "Mlibc.Termios.speeds_equal_partial",
    "Mlibc.Termios.cfmakeraw_spec",
    "Mlibc.Termios.input_speed_violated"
   ],
   "note": "results, unchanged bits and cfmakeraw in full; both speeds are one in the code, so setting the input speed changes the output speed"
  },
  {
   "property": "C125",
   "status": "partial",
   "theorems": [
    "Mlibc.Dup.dup_spec",
    "Mlibc.Dup.dup2_spec_partial",
    "Mlibc.Dup.dup3_spec",
    "Mlibc.Dup.login_tty_partial",
    "Mlibc.Dup.openpty_spec_partial",
    "Mlibc.Dup.forkpty_spec_partial",
    "Mlibc.Dup.dup2_same_violated",
    "Mlibc.Dup.login_tty_violated",
    "Mlibc.Dup.openpty_errno_violated",
    "Mlibc.Dup.forkpty_leak_violated",
    "Mlibc.Dup.forkpty_child_violated"
   ],
   "note": "exact tables for every table and limit; the code fails for dup2(fd, fd) and login_tty of a standard descriptor on Linux, leaks both descriptors if fork fails, keeps the master open in the child, and does not set errno if the terminal has no name"
  },
  {
   "property": "C126",
   "status": "proved",
   "theorems": [
    "Mlibc.Shm.shm_path",
    "Mlibc.Shm.shm_inside"
   ],
   "note": "every name; undefined behaviour is a distinct outcome, so the theorem also says that the buffer is not overrun"
  },
  {
   "property": "C127",
   "status": "partial",
   "theorems": [
    "Mlibc.Diag.error_history_partial",
    "Mlibc.Diag.error_zero_violated",
    "Mlibc.Diag.error_at_line_newline_violated",
    "Mlibc.Diag.error_at_line_file_violated",
    "Mlibc.Diag.warn_spec_partial",
    "Mlibc.Diag.warn_errno_violated",
    "Mlibc.Diag.warnx_spec"
   ],
   "note": "all histories of calls with an error number; without one the code prints the text of error 0 (error) or no end of the line (error_at_line); only line numbers are compared; warn reads errno after its first output"
  },
  {
   "property": "C128",
   "status": "partial",
   "theorems": [
    "Mlibc.SkipName.dn_skipname_name",
    "Mlibc.SkipName.dn_skipname_spec_partial",
    "Mlibc.SkipName.name_unique",
    "Mlibc.SkipName.dn_skipname_long_violated"
   ],
   "note": "every sequence of bytes; the code also accepts labels of 64 to 191 bytes, which the standard reserves"
  },
  {
   "property": "C129",
   "status": "proved",
   "theorems": [
    "Mlibc.FileWindow.window_contents",
    "Mlibc.FileWindow.window_progress"
   ],
   "note": "the variant that reads (MLIBC_MAP_FILE_WINDOWS is 0); the variant that maps the file is one call of the kernel"
  },
  {
   "property": "C130",
   "status": "proved",
   "theorems": [
    "Mlibc.NetBytes.ns_get16_value",
    "Mlibc.NetBytes.ns_get32_value",
    "Mlibc.NetBytes.ns_put16_bytes",
    "Mlibc.NetBytes.ns_put32_bytes",
    "Mlibc.NetBytes.ns_round_trip"
   ],
   "note": "every number and position"
  },
  {
   "property": "C131",
   "status": "proved",
   "theorems": [
    "Mlibc.NetBytes.swab_spec",
    "Mlibc.NetBytes.swab_negative",
    "Mlibc.NetBytes.swapped_spec"
   ],
   "note": "every length and content"
  },
  {
   "property": "C132",
   "status": "proved",
   "theorems": [
    "Mlibc.UtmpName.utmpname_history"
   ],
   "note": "every history; the lock is not modelled"
  },
  {
   "property": "C133",
   "status": "partial",
   "theorems": [
    "Mlibc.Utimes.utimes_spec_partial",
    "Mlibc.Utimes.utime_spec",
    "Mlibc.Utimes.utimes_overflow_violated"
   ],
   "note": "all times whose microseconds, times 1000, fit 64 bits; beyond that the code overflows"
  },
  {
   "property": "C134",
   "status": "proved",
   "theorems": [
    "Mlibc.Backtrace.backtrace_frames",
    "Mlibc.Backtrace.backtrace_none"
   ],
   "note": "on x86; the unwinder is the list of frames it gives"
  },
  {
   "property": "C135",
   "status": "partial",
   "theorems": [
    "Mlibc.Ppoll.ppoll_spec_partial",
    "Mlibc.Ppoll.ppoll_time_violated"
   ],
   "note": "the code rounds down to milliseconds and overflows at 2^31 of them; signals between the steps are not modelled"
  },
  {
   "property": "C136",
   "status": "partial",
   "theorems": [
    "Mlibc.ResolvConf.nameserver_lines",
    "Mlibc.ResolvConf.nameserver_first_partial",
    "Mlibc.ResolvConf.nameserver_blank_violated",
    "Mlibc.ResolvConf.nameserver_long_violated"
   ],
   "note": "the exact result for every file without null bytes; a line without an address hides those behind it, and lines of more than 126 bytes are not seen"
  },
  {
   "property": "C137",
   "status": "proved",
   "theorems": [
    "Mlibc.DevNum.makedev_parts",
    "Mlibc.DevNum.makedev_whole",
    "Mlibc.DevNum.makedev_inj",
    "Mlibc.DevNum.makedev_small"
   ],
   "note": "all numbers"
  },
  {
   "property": "C138",
   "status": "partial",
   "theorems": [
    "Mlibc.Mqueue.mq_receive_partial",
    "Mlibc.Mqueue.mq_names",
    "Mlibc.Mqueue.mq_unlink_denied",
    "Mlibc.Mqueue.mq_receive_violated"
   ],
   "note": "the code returns 0 instead of the length of the message"
  },
  {
   "property": "C139",
   "status": "partial",
   "theorems": [
    "Mlibc.Statx.statx_basic_partial",
    "Mlibc.Statx.statx_flags",
    "Mlibc.Statx.statx_birth_violated"
   ],
   "note": "the code gives the time of the last change as the time of birth"
  },
  {
   "property": "C140",
   "status": "partial",
   "theorems": [
    "Mlibc.Statx.recvfrom_spec_partial",
    "Mlibc.Statx.recvfrom_violated"
   ],
   "note": "the code puts the number of bytes into an int"
  },
  {
   "property": "C141",
   "status": "proved",
   "theorems": [
    "Mlibc.AioRing.drainQueue_submits",
    "Mlibc.AioRing.completions_handled",
    "Mlibc.AioRing.completions_fit"
   ],
   "note": "all sizes, counters and histories, with completions that arrive at any time; the order of memory accesses (the tail is read without acquire) and the meaning of requests are not modelled"
  },
  {
   "property": "C142",
   "status": "partial",
   "theorems": [
    "Mlibc.Listio.listio_notified_once",
    "Mlibc.Listio.listio_wait_word",
    "Mlibc.Listio.listio_error",
    "Mlibc.Listio.listio_marks_partial",
    "Mlibc.Listio.listio_marks_violated",
    "Mlibc.Listio.listio_wait_violated",
    "Mlibc.Listio.aio_len_partial",
    "Mlibc.Listio.aio_len_violated"
   ],
   "note": "the notification without waiting is proved for all lists and interleavings; invalid requests get no error if the list has no valid one, LIO_WAIT sends the notification, and sizes are cut to 32 bits; of the wait (L789-800) only the word is modelled that it waits for"
  },
  {
   "property": "C143",
   "status": "partial",
   "theorems": [
    "Mlibc.AioLife.aio_life_partial",
    "Mlibc.AioLife.aio_cancel_partial",
    "Mlibc.AioLife.aio_reuse_violated",
    "Mlibc.AioLife.suspend_spec"
   ],
   "note": "all histories without cancellations, and cancellations of a request whose structure is not used again; after a cancellation, the completion of the old request hits a new one in the same structure"
  }
 ]
}