{"id": "C01", "title": "memcpy copies exactly the requested bytes", "statement": "memcpy(dest, src, n) with non-overlapping ranges leaves dest[0..n) equal to the old src[0..n), changes no other byte, and returns dest, for every n and every pair of addresses, although the implementation moves 64/32/16/8/4/2/1-byte blocks.", "quantifier": "every byte count n, every source and destination address whose ranges do not overlap, every memory content", "why_tests_cant": "The block decomposition depends on n; tests sample a few sizes, while an off-by-one in one block size corrupts only particular residues.", "anchors": ["options/internal/generic/essential.cpp: forward_copy, memcpy"]}
{"id": "C02", "title": "memmove is correct under every overlap", "statement": "memmove(dest, src, n) leaves dest[0..n) equal to the old src[0..n) and changes nothing else, for every relative position of dest and src including every partial overlap.", "quantifier": "every n, every pair of addresses (any overlap distance), every memory content", "why_tests_cant": "Correctness depends on the overlap distance relative to the block size; the space of (distance, size) pairs is unbounded.", "anchors": ["options/internal/generic/essential.cpp: memmove, forward_copy"]}
{"id": "C03", "title": "memset fills exactly the requested bytes", "statement": "memset(dest, c, n) sets dest[0..n) to the low byte of c and changes no other byte, for every alignment of dest and every n.", "quantifier": "every n, every destination address (any alignment), every fill value, every memory content", "why_tests_cant": "The head/aligned-body/tail split depends on address alignment and length jointly.", "anchors": ["options/internal/generic/essential.cpp: memset"]}
{"id": "C04", "title": "String length functions return the distance to the first NUL and read nothing after it", "statement": "strlen(s) returns the index of the first NUL; strnlen(s, n) returns the minimum of that and n; neither reads a byte past the terminator (or past n).", "quantifier": "every byte string, every bound n", "why_tests_cant": "An over-read does not change the result, so tests never see it.", "anchors": ["options/internal/generic/essential.cpp: strlen", "options/internal/generic/strings.cpp: strnlen"]}
{"id": "C05", "title": "String and memory comparison is the unsigned lexicographic order", "statement": "strcmp, strncmp, memcmp, strcasecmp and strncasecmp return a value whose sign is that of the first differing byte compared as unsigned char (after case folding for the case variants, limited to n bytes for the n variants), 0 iff no difference; hence strcmp is antisymmetric and transitive.", "quantifier": "every pair of strings, every n", "why_tests_cant": "Order laws quantify over pairs and triples of strings; bytes >= 0x80 and prefixes are the classic missed cases.", "anchors": ["options/ansi/generic/string.cpp: strcmp, strncmp, memcmp", "options/posix/generic/strings.cpp: strcasecmp", "options/internal/generic/strings.cpp: strncasecmp"]}
{"id": "C06", "title": "Substring search finds the first occurrence", "statement": "strstr(h, n) returns the pointer to the first position at which n occurs in h, h itself if n is empty, and NULL iff n does not occur; memmem, wcsstr and strcasestr do the same for their notion of equality.", "quantifier": "every haystack and needle", "why_tests_cant": "First-occurrence with self-overlapping needles is an all-strings claim.", "anchors": ["options/ansi/generic/string.cpp: strstr, wcsstr", "options/posix/generic/posix_string.cpp: memmem, strcasestr"]}
{"id": "C07", "title": "Character search and span functions match their set specification", "statement": "strchr/strrchr/memchr/memrchr/strchrnul return the first/last occurrence or NULL (or the end); strspn/strcspn return the length of the longest prefix inside/outside the set; strpbrk the first member of the set.", "quantifier": "every string, every character, every set", "why_tests_cant": "The NUL character as target, empty sets and boundary lengths are combinations tests rarely cover.", "anchors": ["options/ansi/generic/string.cpp: strchr, strrchr, memchr, strspn, strcspn, strpbrk", "options/posix/generic/posix_string.cpp: memrchr, strchrnul"]}
{"id": "C08", "title": "Tokenising splits a string into exactly its maximal delimiter-free runs", "statement": "Repeated strtok_r over a string returns, in order, exactly the maximal non-empty runs of non-delimiter bytes and then NULL for ever; strsep returns exactly the delimiter-separated fields including empty ones.", "quantifier": "every string, every delimiter set (which may vary between calls for strtok_r's saved position)", "why_tests_cant": "It is a property of the whole call history with state carried in the save pointer.", "anchors": ["options/ansi/generic/string.cpp: strtok_r", "options/posix/generic/posix_string.cpp: strsep"]}
{"id": "C09", "title": "Bounded string copies respect their bound and their result", "statement": "strcpy/stpcpy/strncpy/stpncpy/strcat/strncat/strlcpy/strlcat/memccpy write exactly the bytes their specification prescribes (padding, truncation, termination) and never outside the stated bound; the return values are as specified.", "quantifier": "every source, every destination content, every bound", "why_tests_cant": "Buffer overruns by one appear only at exact boundary lengths.", "anchors": ["options/ansi/generic/string.cpp: strcpy, strncpy, strcat, strncat", "options/internal/generic/strings.cpp: strlcpy, stpncpy", "options/posix/generic/posix_string.cpp: strlcat, memccpy, stpcpy"]}
{"id": "C10", "title": "strtol family parses exactly or saturates", "statement": "For the signed and unsigned integer parsers of every width: the longest prefix of the form [space][sign][prefix]digits valid in the base is consumed, endptr points just after it (or to the start when there is no digit), and the returned value is the exact mathematical value if representable, otherwise the type's min/max with ERANGE.", "quantifier": "every input string, every base, every integer width", "why_tests_cant": "Overflow cutoffs must be right at exactly one digit string per base, sign and width.", "anchors": ["options/internal/include/mlibc/strtol.hpp: stringToInteger"]}
{"id": "C11", "title": "UTF-8 encode then decode is the identity", "statement": "For every Unicode scalar value c, wcrtomb produces between 1 and 4 bytes and feeding these bytes to mbrtowc yields c and consumes all of them; no encoding is a proper prefix of another.", "quantifier": "every code point 0..10FFFF outside the surrogate range", "why_tests_cant": "The claim is over 1.1 million code points and over the concatenation with any following bytes.", "anchors": ["options/internal/generic/charcode.cpp: utf8_charcode::encode_state, decode_state, wcrtomb, mbrtowc"]}
{"id": "C12", "title": "The UTF-8 decoder accepts exactly well-formed UTF-8", "statement": "The multibyte decoder accepts a byte sequence iff it is well-formed per Unicode Table 3-7 (no overlong forms, no surrogates, nothing above U+10FFFF) and then yields the unique code point sequence; otherwise it reports illegal input (EILSEQ) or an incomplete character, never a wrong character.", "quantifier": "every finite byte sequence", "why_tests_cant": "Security-relevant rejects (overlong forms, surrogates) form an infinite set of inputs.", "anchors": ["options/internal/generic/charcode.cpp: utf8_charcode::decode_state, polymorphic_charcode_adapter::decode_wtranscode"]}
{"id": "C13", "title": "Incremental multibyte decoding does not depend on how the input is chunked", "statement": "Feeding a byte stream to the restartable decoder in arbitrary chunks through one mbstate_t produces the same characters and the same final state as feeding it in one piece.", "quantifier": "every byte stream and every way of splitting it into chunks", "why_tests_cant": "The number of chunkings is exponential in the length.", "anchors": ["options/internal/generic/charcode.cpp: decode_wtranscode, mbrtowc", "options/ansi/generic/wchar.cpp: mbrtowc, mbrlen"]}
{"id": "C14", "title": "Wide/multibyte string conversion respects buffer limits and round-trips", "statement": "mbsrtowcs/mbsnrtowcs/wcsrtombs/wcsnrtombs never write more than the stated number of units, never split a multibyte character, advance the source pointer past exactly what was converted, and never abort on valid input; the length-only form returns the count that the storing form would produce.", "quantifier": "every source string, every limit", "why_tests_cant": "Truncation inside a multibyte character happens only for particular (string, limit) combinations.", "anchors": ["options/ansi/generic/wchar.cpp: mbsrtowcs, wcsrtombs, wcsnrtombs, mbsnrtowcs", "options/internal/generic/charcode.cpp: encode_wtranscode, encode_wtranscode_length"]}
{"id": "C15", "title": "qsort returns a sorted permutation", "statement": "qsort terminates, leaves a permutation of the original elements whatever the comparison function answers, touches nothing outside the array, and leaves the array sorted when the comparison is a total preorder.", "quantifier": "every array content, length, element size, and comparison function", "why_tests_cant": "Permutation under an inconsistent comparator and termination are all-inputs claims.", "anchors": ["options/ansi/generic/stdlib.cpp: qsort, qsort_impl"]}
{"id": "C16", "title": "bsearch finds a matching element iff one exists", "statement": "On an array sorted with respect to the comparison, bsearch returns an element comparing equal to the key iff one exists, else NULL, and only ever compares the key with array elements.", "quantifier": "every sorted array, every key, every comparison function", "why_tests_cant": "Index arithmetic at the ends fails only for particular lengths and key positions.", "anchors": ["options/ansi/generic/stdlib.cpp: bsearch"]}
{"id": "C17", "title": "tsearch/tfind/tdelete implement an ordered set", "statement": "For any sequence of tsearch, tfind and tdelete calls with a consistent ordering, the tree contains exactly the keys inserted and not deleted; tsearch returns the existing node on a duplicate; tfind returns a node iff the key is present.", "quantifier": "every history of operations and every total order", "why_tests_cant": "Histories are unbounded and the rotation cases depend on the tree shape.", "anchors": ["options/posix/generic/search.cpp: tsearch, tfind, tdelete, rotate, balance_tree"]}
{"id": "C18", "title": "The search tree stays height-balanced", "statement": "After any history of insertions and deletions every node's two subtree heights differ by at most one, so lookups stay logarithmic.", "quantifier": "every history of operations", "why_tests_cant": "Imbalance is not visible in results, only in cost, and needs long histories.", "anchors": ["options/posix/generic/search.cpp: balance_tree, tdelete"]}
{"id": "C19", "title": "twalk visits every element once in order", "statement": "twalk visits each node with preorder/postorder/endorder (or leaf) events; the sequence of postorder-or-leaf events is the sorted key sequence, each exactly once, with its depth.", "quantifier": "every tree", "why_tests_cant": "Trees of all shapes.", "anchors": ["options/posix/generic/search.cpp: twalk"]}
{"id": "C20", "title": "Hash table search implements a bounded map", "statement": "For every history of hsearch calls on one table: ENTER of an absent key stores it unless the table is full (then ENOMEM/failure), ENTER of a present key returns the old entry unchanged, FIND returns the stored entry iff present; no operation changes another key.", "quantifier": "every capacity > 0 and every history of calls", "why_tests_cant": "Probe-sequence collisions depend on the hash values of whole histories.", "anchors": ["options/internal/generic/search.cpp: hcreate_r, hsearch_r, hdestroy_r"]}
{"id": "C21", "title": "Linear search and intrusive queue functions", "statement": "lfind returns the first equal element, lsearch appends iff absent and then increments the count; insque/remque keep a doubly linked list consistent (next/prev inverse), remque of an inserted element restores the list.", "quantifier": "every array/list and every element", "why_tests_cant": "Pointer consistency over all histories.", "anchors": ["options/posix/generic/search.cpp: lfind, lsearch, insque, remque"]}
{"id": "C22", "title": "The environment behaves as a map from names to values", "statement": "After any history of setenv/putenv/unsetenv/clearenv calls, getenv(name) returns the value of the last call affecting name (or its initial value), NULL if unset or cleared; operations on one name never affect another; setenv without overwrite keeps an existing value; invalid names are rejected with EINVAL and no change.", "quantifier": "every history of calls, every initial environment", "why_tests_cant": "Stale or duplicated entries show up only after particular histories.", "anchors": ["options/ansi/generic/environment.cpp: getenv, setenv, putenv, unsetenv, clearenv"]}
{"id": "C23", "title": "getopt parses every argument vector as POSIX prescribes", "statement": "Repeated getopt calls report each option character in argument order with its argument, handle clustered options, '--' and non-options, and terminate: after finitely many calls the return value is -1 and optind indexes the first operand.", "quantifier": "every argument vector and every option string", "why_tests_cant": "Parsing state (optind and the position inside a cluster) persists across calls; termination is a claim over all argument vectors.", "anchors": ["options/internal/generic/getopt.cpp: getopt_common_internal, getopt_common", "options/posix/generic/unistd.cpp: getopt"]}
{"id": "C24", "title": "Buffered output writes exactly the bytes written, in order", "statement": "For every sequence of writes on a FILE, with any buffering mode and with the kernel accepting any partial amount per call, the bytes handed to the file after a flush are exactly the concatenation of the bytes accepted, in order, each once.", "quantifier": "every sequence of write calls, every buffering mode, every partial-write behaviour of the kernel", "why_tests_cant": "Partial writes and buffer-boundary alignment multiply into an unbounded space of schedules.", "anchors": ["options/ansi/generic/file-io.cpp: abstract_file::write, _write_back, flush"]}
{"id": "C25", "title": "Buffered input delivers the file's bytes in order", "statement": "For every sequence of reads on a FILE, with the kernel returning arbitrary short reads, the bytes delivered are consecutive bytes of the file from the stream position, none lost or duplicated, and a zero count is reported only at end of file.", "quantifier": "every file content, every sequence of read sizes, every short-read behaviour", "why_tests_cant": "Short-read schedules are unbounded.", "anchors": ["options/ansi/generic/file-io.cpp: abstract_file::read", "options/ansi/generic/stdio.cpp: fread_unlocked"]}
{"id": "C26", "title": "Stream position is consistent across reads, writes, seeks and tells", "statement": "ftell returns the offset of the next byte to be read or written; fseek(SEEK_SET, ftell()) is a no-op for subsequent I/O; SEEK_CUR is relative to the ftell position; data written before a seek is on the file.", "quantifier": "every history of read, write, seek, tell, ungetc on one stream", "why_tests_cant": "Interaction of the buffer window, dirty range and pushed-back bytes over histories.", "anchors": ["options/ansi/generic/file-io.cpp: tell, seek, _reset, purge"]}
{"id": "C27", "title": "Pushed-back characters are returned in LIFO order before further file data", "statement": "A successful ungetc(c) makes the next read return c, then the rest as before; ungetc returns the character pushed as unsigned char; pushed-back bytes count into ftell and are discarded by a seek.", "quantifier": "every stream state and every sequence of ungetc and reads", "why_tests_cant": "End-of-file and error paths combine with pushed-back bytes only in rare histories.", "anchors": ["options/ansi/generic/file-io.cpp: unget, read, tell, seek"]}
{"id": "C28", "title": "fread/fwrite return the number of complete items", "statement": "fread/fwrite with (size, count) transfer size*count bytes unless end-of-file or an error intervenes, and return the number of complete items; on any failure they return how many complete items were transferred.", "quantifier": "every item size and count, every short-transfer schedule, every error position", "why_tests_cant": "Error position times item boundary is unbounded.", "anchors": ["options/ansi/generic/stdio.cpp: fread_unlocked, fwrite_unlocked_ignore_orientation"]}
{"id": "C29", "title": "fgets stores at most n-1 bytes of one line, always terminated", "statement": "fgets(buf, n, f) stores the bytes up to and including the first newline, at most n-1 of them, followed by NUL, and returns NULL without touching buf exactly when no byte is available.", "quantifier": "every file content and every n > 0", "why_tests_cant": "Boundary at n-1 with and without newline.", "anchors": ["options/ansi/generic/stdio.cpp: fgets_unlocked"]}
{"id": "C30", "title": "getline/getdelim return complete lines of any length", "statement": "getdelim returns the bytes up to and including the first delimiter (or to end-of-file), NUL-terminated in a buffer whose recorded size covers them, and -1 exactly when no byte is left or on error; the buffer is never overrun.", "quantifier": "every file content, delimiter, and initial buffer state", "why_tests_cant": "Buffer growth boundaries (capacity-1, doubling) over arbitrary line lengths.", "anchors": ["options/ansi/generic/stdio.cpp: getdelim"]}
{"id": "C31", "title": "Memory streams behave like files", "statement": "fmemopen/open_memstream streams never access outside the buffer, keep position within bounds, and reading back what was written returns it; seeks outside the permitted range are rejected.", "quantifier": "every buffer size and every history of read/write/seek", "why_tests_cant": "Position arithmetic over histories.", "anchors": ["options/posix/generic/posix-file-io.cpp: memstream_mem_file, fmemopen_mem_file"]}
{"id": "C32", "title": "snprintf never writes outside its buffer and reports the untruncated length", "statement": "For any sequence of formatted pieces, snprintf(buf, n) writes only inside buf[0..n), leaves buf NUL-terminated with the first min(n-1, total) characters of the full output when n > 0, writes nothing when n = 0, and returns the length the full output would have.", "quantifier": "every sequence of formatted pieces and every n", "why_tests_cant": "Truncation can happen inside any piece.", "anchors": ["options/ansi/generic/stdio.cpp: LimitedPrinter, vsnprintf"]}
{"id": "C33", "title": "asprintf returns the whole output in a sufficient buffer", "statement": "vasprintf's growing buffer always has room for the next character and for the terminator; the result is exactly the formatted output followed by NUL.", "quantifier": "every output length", "why_tests_cant": "Growth boundary conditions for all lengths.", "anchors": ["options/ansi/generic/stdio.cpp: ResizePrinter, vasprintf"]}
{"id": "C34", "title": "A mutex is held by at most one thread", "statement": "Under every interleaving of pthread_mutex_lock/trylock/timedlock/unlock by any number of threads that unlock only what they hold, at most one thread is between a successful lock and the matching unlock.", "quantifier": "every number of threads and every interleaving at atomic-operation granularity", "why_tests_cant": "Schedules are unbounded; races need rare interleavings.", "anchors": ["options/internal/generic/threads.cpp: thread_mutex_timedlock, thread_mutex_trylock, thread_mutex_unlock"]}
{"id": "C35", "title": "No wake-up is lost on a mutex", "statement": "Under every interleaving, when the mutex is free and no operation is in progress, no thread is left asleep waiting for it.", "quantifier": "every number of threads and every interleaving, with arbitrary spurious wake-ups", "why_tests_cant": "A lost wake-up is a hang that needs one specific interleaving.", "anchors": ["options/internal/generic/threads.cpp: thread_mutex_timedlock, thread_mutex_unlock"]}
{"id": "C36", "title": "Recursive and error-checking mutexes follow POSIX ownership rules", "statement": "A recursive mutex must be unlocked as often as its owner locked it before another thread can take it; an error-checking mutex reports EDEADLK on relock by the owner and EPERM on unlock by a non-owner without changing its state; trylock reports EBUSY when held by another thread.", "quantifier": "every history of calls by any threads", "why_tests_cant": "Ownership rules are claims about all histories including misuse.", "anchors": ["options/internal/generic/threads.cpp: thread_mutex_*", "options/posix/generic/pthread.cpp: pthread_mutex_*"]}
{"id": "C37", "title": "One-time initialisation runs exactly once and completes before any caller returns", "statement": "For any number of threads calling pthread_once/call_once on the same control, the routine is run exactly once and every call returns only after it has completed; no caller sleeps for ever.", "quantifier": "every number of threads and interleaving", "why_tests_cant": "Race windows.", "anchors": ["options/internal/generic/threads.cpp: thread_once"]}
{"id": "C38", "title": "Condition variables lose no signal", "statement": "A thread that has begun pthread_cond_wait (released the mutex) before a signal/broadcast issued with the mutex held is woken by it: a broadcast releases every current waiter, and a waiter returns only after reacquiring the mutex.", "quantifier": "every number of waiters and signallers and every interleaving, every value of the internal counter", "why_tests_cant": "The unlock-then-sleep window and counter wrap-around are beyond sampling.", "anchors": ["options/internal/generic/threads.cpp: thread_cond_signal, thread_cond_broadcast, thread_cond_timedwait"]}
{"id": "C39", "title": "Barriers release exactly full groups", "statement": "No thread leaves pthread_barrier_wait before count threads have entered the current round; each round returns PTHREAD_BARRIER_SERIAL_THREAD to exactly one thread; after the last entry all of the round's threads can leave; the barrier is reusable for ever.", "quantifier": "every thread count, every number of rounds, every interleaving", "why_tests_cant": "Rounds are unbounded (generation counters wrap).", "anchors": ["options/posix/generic/pthread.cpp: pthread_barrier_wait, pthread_barrier_destroy"]}
{"id": "C40", "title": "Reader/writer locks exclude writers", "statement": "Under every interleaving, while a writer holds the lock no other reader or writer does; any number of readers may hold it together; unlock by the last holder lets a waiting thread proceed; trylock fails only when the lock is incompatibly held.", "quantifier": "every number of threads and interleaving", "why_tests_cant": "Schedules.", "anchors": ["options/posix/generic/pthread.cpp: rwlock_m_lock, rwlock_m_trylock, rwlock_m_unlock, pthread_rwlock_*"]}
{"id": "C41", "title": "Semaphores conserve their count", "statement": "The number of completed sem_wait/sem_trywait calls never exceeds the initial value plus completed sem_post calls; sem_trywait succeeds whenever the value is positive; a post after which the value is positive leaves no waiter asleep for ever; sem_getvalue reports the value.", "quantifier": "every number of threads and interleaving", "why_tests_cant": "Schedules.", "anchors": ["options/posix/generic/semaphore.cpp: sem_wait, sem_trywait, sem_post, sem_getvalue"]}
{"id": "C42", "title": "Spin locks and the internal lock exclude", "statement": "Under every interleaving at most one thread holds a pthread spinlock, and at most one thread holds the library-internal (optionally recursive) lock used by FILE locking; flockfile nests and ftrylockfile succeeds for the owner.", "quantifier": "every number of threads and interleaving", "why_tests_cant": "Schedules.", "anchors": ["options/posix/generic/pthread.cpp: pthread_spin_*", "options/internal/include/mlibc/lock.hpp: FutexLockImpl", "options/ansi/generic/stdio.cpp: flockfile, ftrylockfile"]}
{"id": "C43", "title": "Thread-specific data keys are isolated", "statement": "pthread_getspecific returns the value last set by the same thread for the same key creation; a recreated key reads NULL in every thread; keys are distinct while alive; creation fails with EAGAIN only when all keys are in use.", "quantifier": "every history of create/delete/set/get by any threads", "why_tests_cant": "Slot reuse after deletion is a history property.", "anchors": ["options/internal/generic/threads.cpp: thread_key_create, thread_key_delete, thread_key_get, thread_key_set"]}
{"id": "C44", "title": "Thread exit runs cleanup handlers and destructors as specified", "statement": "On thread exit, C++ thread-local destructors and cleanup handlers run in reverse order of registration, each exactly once; then each non-NULL key value's destructor is called with that value, the value being NULL during the call, repeated while destructors set new values up to the iteration limit.", "quantifier": "every set of handlers and keys, every behaviour of the destructors", "why_tests_cant": "Destructors that set values again are rarely tested.", "anchors": ["options/internal/generic/threads.cpp: thread_exit, run_thread_local_destructors", "options/posix/generic/pthread.cpp: pthread_cleanup_push/pop"]}
{"id": "C45", "title": "Process exit handlers run once each in reverse order", "statement": "exit() runs functions registered by atexit in reverse order of registration, each exactly once, also when handlers register or finalise others; __cxa_finalize(dso) runs exactly that object's handlers; quick_exit does the same for at_quick_exit.", "quantifier": "every registration history", "why_tests_cant": "Histories with nested registration.", "anchors": ["options/lsb/generic/dso_exit.cpp: __cxa_atexit, __cxa_finalize, __mlibc_do_finalize", "options/ansi/generic/stdlib.cpp: at_quick_exit, quick_exit"]}
{"id": "C46", "title": "Join and detach release a thread exactly once", "statement": "For any interleaving of pthread_join/pthread_detach on a thread, at most one of them succeeds; a join returns only after the thread has exited and yields its exit value.", "quantifier": "every interleaving", "why_tests_cant": "Race between detach and join.", "anchors": ["options/internal/generic/threads.cpp: thread_join, thread_detach, thread_exit"]}
{"id": "C47", "title": "Signal sets behave as sets", "statement": "sigemptyset/sigfillset/sigaddset/sigdelset/sigismember implement exactly the finite set of valid signal numbers; invalid numbers are rejected with EINVAL and leave the set unchanged.", "quantifier": "every history of operations, every int signal number", "why_tests_cant": "Bit addressing at word boundaries and out-of-range numbers over all ints.", "anchors": ["options/internal/generic/sigset.cpp: sigaddset, sigdelset, sigismember, sigfillset"]}
{"id": "C48", "title": "CPU sets behave as sets", "statement": "CPU_ZERO, CPU_SET, CPU_CLR, CPU_ISSET and CPU_COUNT implement set operations on the CPUs representable in the given size and never touch memory outside it; CPU_ALLOC_SIZE is the least multiple of the word size with room for that many CPUs.", "quantifier": "every set size, every CPU number, every content", "why_tests_cant": "Word addressing at boundaries and out-of-range CPU numbers.", "anchors": ["options/linux/generic/cpuset.cpp: __mlibc_cpu_*"]}
{"id": "C49", "title": "inet_ntop and inet_pton are inverse and reject malformed text", "statement": "For every address, parsing the printed form gives the address back; the printed form never exceeds the given size (ENOSPC instead); inet_pton accepts exactly the textual addresses of its family and never reads past the string's terminator.", "quantifier": "every IPv4/IPv6 address, every buffer size, every input string", "why_tests_cant": "2^128 addresses; over-reads are invisible.", "anchors": ["options/posix/generic/arpa-inet.cpp: inet_ntop, inet_pton, inet_aton, inet_addr"]}
{"id": "C50", "title": "Byte-order conversion is an involution onto network order", "statement": "htons/htonl/ntohs/ntohl place the most significant byte first and are mutually inverse for every value.", "quantifier": "every 16/32/64-bit value", "why_tests_cant": "2^32/2^64 values.", "anchors": ["options/posix/generic/arpa-inet.cpp: htonl, htons, ntohl, ntohs", "options/internal/include/mlibc/bitutil.hpp: bit_util::byteswap"]}
{"id": "C51", "title": "Absolute and relative deadlines convert exactly", "statement": "Converting an absolute deadline to a relative timeout yields exactly deadline - now when positive (normalised nanoseconds), reports already-expired exactly when the deadline is not in the future, and rejects invalid nanoseconds; relative to absolute adds exactly.", "quantifier": "every pair of times", "why_tests_cant": "Borrow/carry at the nanosecond boundary.", "anchors": ["options/internal/include/mlibc/time-helpers.hpp: time_absolute_to_relative, time_relative_to_absolute"]}
{"id": "C52", "title": "Calendar conversion round-trips and is correct", "statement": "timegm(gmtime(t)) = t for every t whose fields fit; gmtime's year/month/day/weekday/yearday are those of the proleptic Gregorian calendar with fields in their normal ranges; mktime normalises out-of-range fields.", "quantifier": "every representable time_t", "why_tests_cant": "2^64 instants; century and leap rules; negative times.", "anchors": ["options/ansi/generic/time.cpp: gmtime_r, timegm, civil_from_days, days_from_civil, weekday_from_days, yearday_from_date"]}
{"id": "C53", "title": "strftime never overruns and concatenates its conversions", "statement": "strftime writes only inside the given size, returns 0 when the result with terminator does not fit, otherwise the length of the concatenation of the literal characters and conversion results, NUL-terminated.", "quantifier": "every format string, every size, every broken-down time", "why_tests_cant": "Exact-fit boundaries for every format.", "anchors": ["options/internal/include/mlibc/time.hpp: strftime"]}
{"id": "C54", "title": "basename and dirname split paths as POSIX prescribes", "statement": "For every path, dirname and basename return the POSIX-specified components (trailing slashes ignored, '/' and '.' special cases) and dirname/basename recombine to an equivalent path.", "quantifier": "every path string", "why_tests_cant": "Slash patterns are unbounded.", "anchors": ["options/posix/generic/libgen.cpp: basename, dirname"]}
{"id": "C55", "title": "getsubopt tokenises suboptions", "statement": "getsubopt returns the index of the token equal to the next comma-separated name, sets value to the text after '=' (or NULL), advances past it, returns -1 with the whole suboption for unknown names, and consumes the string in finitely many calls.", "quantifier": "every option string and token table", "why_tests_cant": "Prefix-related token names and empty fields.", "anchors": ["options/posix/generic/posix_stdlib.cpp: getsubopt"]}
{"id": "C56", "title": "wordexp rejects exactly unquoted special characters", "statement": "The syntax check performed before invoking the shell rejects (WRDE_BADCHAR) every unquoted newline, |, &, ;, <, >, (, ), {, } outside permitted substitution contexts, WRDE_CMDSUB for command substitution when forbidden, and WRDE_SYNTAX for unbalanced quotes; quoted occurrences are accepted.", "quantifier": "every input word string and flag set", "why_tests_cant": "Quoting state machine over all strings (command injection).", "anchors": ["options/posix/generic/wordexp.cpp: we_check"]}
{"id": "C57", "title": "Pseudo-random generators are deterministic, in range, and restorable", "statement": "random()/rand_r()/drand48 family results lie in their documented ranges, depend only on seed and number of calls; setstate(initstate(...)) resumes the saved sequence exactly.", "quantifier": "every seed and every number of calls, every state size", "why_tests_cant": "Sequences are unbounded.", "anchors": ["options/posix/generic/posix_stdlib.cpp: random, srandom, initstate, setstate", "options/ansi/generic/stdlib.cpp: rand_r"]}
{"id": "C58", "title": "Allocation size computations detect overflow", "statement": "calloc(n, m) and reallocarray fail with ENOMEM when n*m is not representable, and otherwise request exactly n*m bytes (calloc zeroing all of them).", "quantifier": "every pair of sizes", "why_tests_cant": "2^128 pairs.", "anchors": ["options/ansi/generic/stdlib.cpp: calloc", "options/posix/generic/posix_stdlib.cpp: reallocarray"]}
{"id": "C59", "title": "The debug allocator returns aligned, in-bounds blocks and detects overruns", "statement": "Every block returned lies inside its mapping, is aligned, ends directly before the guard page up to alignment, its metadata is recovered exactly on free/realloc, and realloc preserves the common prefix.", "quantifier": "every request size", "why_tests_cant": "Page arithmetic over all sizes.", "anchors": ["options/internal/generic/allocator.cpp: DebugAllocator/allocate, reallocate, free, get_size"]}
{"id": "C60", "title": "fopen mode strings map to open flags as ISO C prescribes", "statement": "For every mode string the open flags are those prescribed: r/w/a with optional +, b, e, x in any permitted order; other strings do not silently produce a writable stream.", "quantifier": "every mode string", "why_tests_cant": "All orders and combinations of modifiers.", "anchors": ["options/ansi/generic/file-io.cpp: fd_file::parse_modestring"]}
{"id": "C61", "title": "realpath returns a canonical existing path", "statement": "realpath resolves '.', '..', repeated slashes and symbolic links; the result names the same file, is absolute and contains no '.', '..', empty components or symbolic links; cyclic links yield ELOOP; missing components ENOENT.", "quantifier": "every path and every file-system tree with symbolic links", "why_tests_cant": "Trees and link chains are unbounded.", "anchors": ["options/posix/generic/posix_stdlib.cpp: realpath"]}
{"id": "C62", "title": "Shared objects are initialised once, after their dependencies, and destroyed in reverse", "statement": "For every dependency graph, program start/dlopen runs each reachable object's initialisers exactly once; an object is initialised after all its dependencies unless they form a cycle with it; destructors run in exact reverse order.", "quantifier": "every finite dependency graph", "why_tests_cant": "Graphs are unbounded.", "anchors": ["options/rtld/generic/linker.cpp: Loader::_buildLinkBfs, Loader::initObjects, Loader::_scheduleInit, ObjectRepository::destructObjects"]}
{"id": "C63", "title": "Static TLS blocks are disjoint, aligned and inside the thread's allocation", "statement": "For every list of TLS segments (size, power-of-two alignment), the assigned blocks are pairwise disjoint, do not overlap the thread control block, are aligned, and lie in the memory allocated for the thread; late static TLS is granted only if it fits the reserve.", "quantifier": "every list of segments and every allocation address", "why_tests_cant": "Alignment combinations are unbounded.", "anchors": ["options/rtld/generic/linker.cpp: Loader::_buildTlsMaps, allocateTcb"]}
{"id": "C64", "title": "Symbol lookup returns the first eligible definition in scope order", "statement": "For well-formed hash tables, looking a name up in an object finds a defined global/weak symbol of that name and version iff the object has one; a scope lookup returns the definition from the first object in load order that has one; results do not depend on hash collisions.", "quantifier": "every symbol name, every well-formed table, every scope", "why_tests_cant": "Collisions and chains over all names.", "anchors": ["options/rtld/generic/linker.cpp: resolveInObject, Scope::resolveSymbol, gnuHash, elf64Hash"]}
{"id": "C65", "title": "scanf integer conversions read the longest valid prefix and store its value", "statement": "%d/%i/%u/%o/%x skip white space, read an optional sign and the longest run of valid digits not exceeding the field width, store the value, count successful assignments, and leave the first unread character next.", "quantifier": "every input and every width", "why_tests_cant": "Digit strings and widths are unbounded.", "anchors": ["options/ansi/generic/stdio.cpp: do_scanf"]}
{"id": "C66", "title": "Relocations of a shared object are applied exactly once and before any dependent initialiser", "statement": "For every dependency graph and every sequence of program start and dlopen calls, the relocations of each loaded object are applied exactly once, before the initialisers of any object that depends on it run.", "quantifier": "every finite dependency graph, every sequence of requests including dlopen from initialisers", "why_tests_cant": "Graphs are unbounded.", "anchors": ["options/rtld/generic/linker.cpp: Loader::_buildLinkBfs, Loader::linkObjects, Loader::_processStaticRelocations"]}
{"id": "C67", "title": "The resolver returns exactly the addresses and names of the server's answer", "statement": "For every well-formed reply (matching identifier, no error code, any number of answer records, names compressed in any legal way), a lookup returns exactly the addresses of the address records of the requested family in order, the aliases and the canonical name; a reply with an error code or no reply gives failure; the query sent encodes exactly the requested name and type.", "quantifier": "every host name, every well-formed reply and every way of compressing its names", "why_tests_cant": "Names, record lists and compression chains are unbounded.", "anchors": ["options/posix/generic/lookup.cpp: read_dns_name, lookup_name_dns"]}
{"id": "C68", "title": "strptime reads back what strftime prints", "statement": "For every valid broken-down time and every format of literals, names and numeric fields whose texts are set off from each other, strptime of strftime's output with the same format succeeds, consumes all of it, restores every printed field, leaves unprinted ones alone, and works out the day of the week and of the year of a complete date; whatever the input, a successful call leaves the fields in range.", "quantifier": "every time, format, locale with distinguishable names, trailing text; every input for the range claim", "why_tests_cant": "Formats, times and locales are unbounded.", "anchors": ["options/posix/generic/time.cpp: strptime, strptime_internal, day_determination, month_and_year_to_day_in_year"]}
{"id": "C69", "title": "TZ strings mean what POSIX says, and local time follows them", "statement": "Every TZ text in the POSIX format (with or without a leading colon) is taken as the zone it stands for: names, offsets, summer time offset (one hour ahead by default), start and end rules; a text is taken as such exactly if it begins with a proper name and an offset; local time in a zone without summer time is the Gregorian date and time of the instant moved by the offset, with the right tm_gmtoff and tm_zone.", "quantifier": "every text, every instant", "why_tests_cant": "Texts and instants are unbounded.", "anchors": ["options/ansi/generic/time.cpp: getnum, getoffset, getrule, parse_tz, do_tzset, time_from_rule, is_in_dst, unix_local_from_gmt, localtime_r"]}
{"id": "C70", "title": "Local time follows the zone file that TZ names", "statement": "For every well-formed zone file and every instant, tm_gmtoff, tm_isdst and tm_zone are those of the last transition up to the instant (of the first type before all transitions), and the fields are those of the instant moved by that offset.", "quantifier": "every zone file in the format, every instant", "why_tests_cant": "Files and instants are unbounded.", "anchors": ["options/ansi/generic/time.cpp: parse_tzfile, unix_local_from_gmt_tzfile, unix_local_from_gmt, localtime_r"]}
{"id": "C71", "title": "The group database is what /etc/group says", "statement": "getgrnam and getgrgid return the first entry of the file with that name or number and fail exactly if there is none; getgrent gives the entries in order; lines that are not entries (comments, blank lines) are passed over; getgrouplist returns the number of the user's groups, stores as many as fit and returns -1 exactly if they do not all fit; initgroups installs all of them; an entry written by putgrent is read back as it was; getgrnam_r puts everything into the caller's buffer, without overlap, or reports ERANGE.", "quantifier": "every file, every name and number, every buffer", "why_tests_cant": "Files have any number of lines, members and groups.", "anchors": ["options/posix/generic/grp.cpp: walk_file, extract_entry, clear_entry, copy_to_buffer, getgrent, getgrgid, getgrgid_r, getgrnam, getgrnam_r, fgetgrent, putgrent, getgrouplist, initgroups"]}
{"id": "C72", "title": "The user database is what /etc/passwd says", "statement": "getpwnam and getpwuid return the first entry of the file with that name or number and fail exactly if there is none; getpwent gives the entries in order; lines that are not entries are passed over; putpwent refuses entries that cannot be read back and writes the others so that they are; getpwnam_r and getpwuid_r report ERANGE exactly if the buffer is too small for the strings, and otherwise place them in it.", "quantifier": "every file, every name and number, every buffer", "why_tests_cant": "Files have any number of lines.", "anchors": ["options/posix/generic/pwd.cpp: extract_entry, getpwent, getpwnam, getpwnam_r, getpwuid, getpwuid_r, fgetpwent, putpwent"]}
{"id": "C73", "title": "The shadow database: lookups and round trip", "statement": "getspnam_r finds the first entry of the user, whatever lines (of any length) stand before it, if the buffer holds the line, and reports ERANGE if not; a user without an entry is no error; names that could lead to another file (empty, with a slash, beginning with a dot) are refused with EINVAL; an entry written by putspent is read back by sgetspent with missing numbers still missing.", "quantifier": "every file whose lines end in newlines, every name, every buffer size, every entry whose texts contain no separator", "why_tests_cant": "Lines are of any length and number.", "anchors": ["options/glibc/generic/shadow.cpp: putspent, xatol, __parsespent, getspnam_r, sgetspent"]}
{"id": "C74", "title": "The exec functions pass on what they are given and search PATH in order", "statement": "execvp and execvpe hand a name with a slash to the kernel as it is; any other name is tried in the directories of PATH in order (in the default path if PATH is not set), going on after ENOENT and ENOTDIR, going on but remembering after EACCES, and stopping at any other error; execle and execlp pass exactly the arguments before the null pointer, and the environment after it.", "quantifier": "every PATH, every file system, every number of arguments", "why_tests_cant": "PATH has any number of entries, argument lists any length.", "anchors": ["options/posix/generic/unistd.cpp: execl, execle, execlp, execvp, execvpe, execve"]}
{"id": "C75", "title": "getcwd returns the current directory's path", "statement": "getcwd returns the path from the root to the current directory if it fits the buffer with its final zero, and fails with ERANGE without writing outside the buffer otherwise; with a null buffer the result is allocated.", "quantifier": "every chain of directories, every buffer size", "why_tests_cant": "Paths have any depth.", "anchors": ["options/posix/generic/unistd.cpp: getcwd"]}
{"id": "C76", "title": "posix_spawn performs its file actions in the child, in order, and reports any failure", "statement": "The child applies the file actions in the order they were added to a copy of the parent's descriptor table and runs the program only if all of them succeed; otherwise posix_spawn returns the error of the first that failed; the parent's own descriptors are as before.", "quantifier": "every list of file actions, every descriptor table", "why_tests_cant": "Action lists are arbitrary sequences of open, close and dup2 over arbitrary descriptors, including those spawn uses itself.", "anchors": ["options/posix/generic/spawn.cpp: posix_spawn, posix_spawn_impl, posix_spawn_file_actions_addopen, posix_spawn_file_actions_addclose, posix_spawn_file_actions_adddup2, child"]}
{"id": "C77", "title": "fork handlers run in the right order", "statement": "fork calls the prepare handlers in the reverse of the order of their registration, then, in the parent and in the child, the handlers registered for it in the order of registration; null handlers are skipped.", "quantifier": "every history of registrations by any threads", "why_tests_cant": "Any number of registrations by any threads.", "anchors": ["options/posix/generic/pthread.cpp: pthread_atfork", "options/posix/generic/unistd.cpp: fork"]}
{"id": "C78", "title": "nftw visits every object below a directory once, in order", "statement": "nftw calls the given function once for each object that is reached from the start through readable directories (with FTW_MOUNT without leaving the device), with its path, type, level and the offset of its name; a directory before what is in it, with FTW_DEPTH after; directories that are below themselves through links are not entered; the walk ends at the first result that is not 0, and that is what nftw returns, or at the first error; it uses no more descriptors than allowed and closes them.", "quantifier": "every file system, every function (whose result may depend on all calls so far), all flags, every depth", "why_tests_cant": "Trees have any shape and depth, the function is arbitrary.", "anchors": ["options/posix/generic/ftw.cpp: do_nftw, ftw, nftw"]}
{"id": "C79", "title": "getopt_long reports every option of every command line", "statement": "For every table of long options and every command line of short options, long options (by name or an unambiguous beginning, exact names first, with '=argument' or the argument in the next word) and operands in any order, repeated calls of getopt_long report exactly the options in order with their values (returned, or assigned through flag and 0 returned), arguments and indices, '?' for unknown and ambiguous names, then -1, with the operands moved behind the options.", "quantifier": "all tables, all option strings, all command lines", "why_tests_cant": "The table and the line are arbitrary; abbreviations depend on the whole table.", "anchors": ["options/internal/generic/getopt.cpp: longopt_find, longopt_consume, getopt_common", "options/glibc/generic/getopt.cpp: getopt_long"]}
{"id": "C80", "title": "Thread cancellation acts when allowed, only then, and is not lost", "statement": "A thread is cancelled only after a request; never while it has cancellation disabled; with deferred cancellation only inside pthread_testcancel or a system call that is a cancellation point; a request made before such a call makes it never return nor take effect, a request during a blocking call interrupts it, and with asynchronous cancellation it acts at once; a call that has taken effect is not cancelled; the cleanup handlers all run and the thread can then be joined; the functions return the previous state and type.", "quantifier": "every interleaving of the thread, the signal handler at any instruction, and any number of threads calling pthread_cancel", "why_tests_cant": "The signal can arrive between any two instructions.", "anchors": ["options/posix/generic/pthread.cpp: pthread_cancel, pthread_setcancelstate, pthread_setcanceltype, sigcancel_handler, pthread_exit", "options/internal/generic/threads.cpp: thread_testcancel, thread_exit", "sysdeps/linux/x86_64/cp_syscall.S", "sysdeps/linux/generic/sysdeps.cpp: Sysdeps<BeforeCancellableSyscall>"]}
{"id": "C81", "title": "A directory stream reads every entry once and can go back", "statement": "Whatever the directory and however the kernel batches it, readdir and readdir_r give every entry once, complete and in order, then NULL; telldir names the position and seekdir and rewinddir go back to it, after any calls in between; scandir gives exactly the entries the select function keeps, sorted by the comparison function, or -1.", "quantifier": "every directory, every way to split it into batches, every sequence of calls, every select and comparison function, every allocation failure", "why_tests_cant": "The batching depends on the kernel and on the names; entries at the batch boundaries are what a fixed test misses.", "anchors": ["options/posix/generic/dirent.cpp: fdopendir, opendir, readdir, readdir_r, telldir, seekdir, rewinddir, scandir", "options/posix/include/dirent.h"]}
{"id": "C82", "title": "The mount table is read and written faithfully", "statement": "getmntent passes over blank lines and comments and gives the fields of the next line; what addmntent writes is read back unchanged; hasmntopt finds exactly the options that are set; the numbers of an entry are those of its own line.", "quantifier": "every table, every entry, every option, every buffer in which the lines fit", "why_tests_cant": "Any text can be in the file; the fields are located by sscanf positions in the same buffer.", "anchors": ["options/linux/generic/mntent.cpp: getmntent, getmntent_r, addmntent, hasmntopt"]}
{"id": "C83", "title": "syslog sends each message that the mask lets through, once", "statement": "Any history of openlog, closelog, setlogmask and syslog sends, in order, exactly one datagram for each message whose severity the mask includes, with priority and facility, time, name and message, cut to 1024 bytes and ended by a newline, also if the connection is lost and found again; setlogmask returns the mask before, and a mask of 0 leaves it; the options of openlog are obeyed.", "quantifier": "every history of calls, every priority, mask, facility, name and message, every behaviour of the socket", "why_tests_cant": "The state is global and any history can precede a message; lengths around the buffer size matter.", "anchors": ["options/posix/generic/syslog.cpp: openlog, closelog, setlogmask, vsyslog, _vsyslog"]}
{"id": "C84", "title": "The services database is looked up faithfully", "statement": "getservbyname gives the first entry of /etc/services whose name or alias, and protocol if one is given, are those asked for; getservbyport likewise for the port; the answer has the official name, the port and the protocol of the entry; a decimal service of getaddrinfo is that port for each protocol the hints allow.", "quantifier": "every services file, every name, port, protocol and socket type", "why_tests_cant": "Any text can be in the file; the fields are searched as substrings in a buffer of 128 bytes that is used again and again.", "anchors": ["options/posix/generic/services.cpp: lookup_serv_by_name, lookup_serv_by_port, lookup_serv_file_name, lookup_serv_file_port, parse_rest", "options/posix/generic/netdb.cpp: getservbyname, getservbyport"]}
{"id": "C85", "title": "The hosts file is looked up faithfully", "statement": "A name that is the host name or an alias on some lines of /etc/hosts has exactly the addresses of those lines of the family asked for, in order, with the other names of the lines as aliases; the host name of an address is the first name of the first line with that address; comments are not looked at; the lookup ends.", "quantifier": "every hosts file, every name, every address, every family", "why_tests_cant": "Any text can be in the file; lines, comments and spaces can be arranged in any way.", "anchors": ["options/posix/generic/lookup.cpp: lookup_name_hosts, lookup_addr_hosts"]}
{"id": "C86", "title": "getaddrinfo gives every address with every service, getnameinfo the names", "statement": "When a node and a service are found, the list that getaddrinfo gives has exactly one entry for each pair of an address and a service, in order, with the right family, address, socket type, protocol and port, the canonical name in the first; it has only the families asked for; a literal address or a port number needs no file and no DNS; errors are reported as codes. getnameinfo gives the name of the address and of the port, or their numbers if so asked; gethostbyname the IPv4 addresses of a name.", "quantifier": "every node, service, hints and flags, every content of the files, every answer of DNS, every configuration of the network", "why_tests_cant": "The combinations of flags, families, protocols and lookup results are too many to try.", "anchors": ["options/posix/generic/netdb.cpp: getaddrinfo, getnameinfo, gethostbyname", "options/posix/generic/lookup.cpp: lookup_name_null, lookup_name_ip"]}
{"id": "C87", "title": "The protocols database is read faithfully over any history of calls", "statement": "getprotobyname and getprotobynumber give the first entry of /etc/protocols with this name or number, with all its aliases; getprotoent gives the entries one after the other; setprotoent and endprotoent go back to the first; each call ends; no descriptor is left open unless asked for.", "quantifier": "every protocols file, every history of calls", "why_tests_cant": "The position in the file is global state that all calls share; any text can be in the file.", "anchors": ["options/posix/generic/netdb.cpp: findProto, getprotobyname, getprotobynumber, getprotoent, setprotoent, endprotoent"]}
{"id": "C88", "title": "Wide characters have the columns of the tables, and wide strings are copied, joined and compared exactly", "statement": "wcwidth gives for every value the columns of the character (-1 control, 0 format or combining, 2 East Asian wide, else 1), wcswidth the sum up to the end or the limit, or -1 if there is a control character. wcslcpy, wcslcat, wcpcpy, wcpncpy and wcsdup write exactly what is asked, nothing else, and report lengths and places; wcsncasecmp and wcscasecmp have the sign of the comparison of the folded strings; none reads behind the terminator or the limit.", "quantifier": "every character value, every string, every size", "why_tests_cant": "There are 2^32 characters and any string; a binary search can miss one interval only.", "anchors": ["options/posix/generic/wchar.cpp: wcwidth, wcswidth, wcsdup, wcsncasecmp, wcscasecmp, wcslcat, wcslcpy, wcpcpy", "options/internal/generic/wide.cpp: wcpncpy, wcsnlen"]}
{"id": "C89", "title": "setlocale and newlocale select what the name, or the environment, says, and what setlocale returned restores the locale", "statement": "A locale name is taken apart into language, territory, codeset and modifier, and the names tried for it are exactly those that keep some of these parts, in order of preference. Setting one category changes that category to what the name selects and no other; a name that selects nothing changes nothing. Setting all categories sets each to what the name (or its item of a list of names) selects. setlocale(LC_ALL, \"\") takes LC_ALL, else for each category its own variable, else LANG, else C. newlocale takes the categories of the mask from the name and the others from the base. In every history of calls in which no call for all categories failed, the string returned by setlocale(LC_ALL, NULL) brings all categories back from any later locale.", "quantifier": "every installed set of locales, every environment, every name, every history of calls", "why_tests_cant": "The set of locales, the names and the histories are unbounded; restoring depends on every earlier call.", "anchors": ["options/ansi/generic/locale.cpp: setlocale", "options/internal/generic/locale.cpp: parseLocaleName, normalizeCodeset, buildLocaleList, parseCompositeLocaleName, findLocaleArchiveRecord, findLocaleFileRecord, updateLocaleName, applyCategory, loadLocale", "options/posix/generic/posix_locale.cpp: newlocale"]}
{"id": "C90", "title": "strtod reads the longest numeral and returns the number it denotes", "statement": "For every text made of white space, a decimal or hexadecimal floating numeral and something that does not continue it, strtod (and strtof, strtold, wcstod) sets the end pointer right behind the numeral. With exact arithmetic the number returned is the number the numeral denotes. In binary64, in every rounding mode, a decimal integer below 2^53 and a hexadecimal numeral whose digits make an integer below 2^53, scaled within the range of binary64, give exactly the number denoted. If there is no numeral the end pointer is the string itself; inf, infinity and nan are recognised ignoring case; the result is correctly rounded.", "quantifier": "every string, every decimal point of a locale, every rounding mode", "why_tests_cant": "Strings, numbers of digits and exponents are unbounded, and the rounding of each step depends on all digits before.", "anchors": ["options/internal/include/mlibc/strtofp.hpp: strtofp", "options/ansi/generic/stdlib.cpp: strtod, strtof, strtold", "options/ansi/generic/wchar.cpp: wcstod, wcstof, wcstold"]}
{"id": "C91", "title": "The user accounting database is one sequence of records", "statement": "getutxent and getutent return the records of the file one after the other; getutxid and getutxline return the next record that matches, as POSIX defines matching, and go on behind it; setutxent goes back to the first record; pututxline adds its record (replacing the one with the same id); records appended by other processes are seen. However the system cuts reads and writes, no record is lost, repeated or mixed with another. After utmpname the named file is used.", "quantifier": "every file of records, every history of calls, every partition of reads and writes", "why_tests_cant": "Histories and file lengths are unbounded, and the offset after a call depends on every read of all earlier calls.", "anchors": ["options/internal/include/mlibc/utmp.hpp: getUtmpEntry, getUtmpEntryById, getUtmpEntryByType, putUtmpEntry", "options/posix/generic/utmpx.cpp: setutxent, getutxent, getutxid, getutxline, pututxline, endutxent, utmpxname", "options/linux/generic/utmp.cpp: setutent, getutent, getutid, getutline, pututline, endutent, utmpname"]}
{"id": "C92", "title": "popen, pclose and system run the command with the right descriptors and leave the caller as it was", "statement": "popen gives the caller one end of a new pipe and the command the other one as standard input or output, and the pipe on no other number of either process; all other descriptors of the caller, its signal dispositions and its mask are as before, and the command has the dispositions and mask the caller had. Streams of earlier calls are closed in the command, so that closing a stream ends its command's input. A failed call changes nothing. pclose closes the stream and returns the status of its own command, and not before that has ended; system waits likewise. dup2 makes the second number another one for the object of the first, also when both are equal.", "quantifier": "every caller, every numbering and failure of pipe, fork, execve and waitpid, every history of popen, pclose and other opens and closes", "why_tests_cant": "What a command inherits depends on the whole history of streams before it and on the numbers the system happens to choose.", "anchors": ["options/posix/generic/posix_stdio.cpp: popen, pclose", "options/ansi/generic/stdlib.cpp: system", "options/posix/generic/unistd.cpp: dup2", "sysdeps/linux/generic/sysdeps.cpp: Dup2, Waitpid, Fork, Execve"]}
{"id": "C93", "title": "strcmp with vector instructions gives the order of the strings and reads no page that holds none of them", "statement": "On every processor, whichever version of strcmp was chosen for it, the result is negative, zero or positive as the first string comes before, equals or comes after the second in the order of unsigned bytes. The strings may lie anywhere, at any alignment and with their ends at the end of a page after which nothing is mapped: no address outside the pages that hold a byte of the strings is read.", "quantifier": "all strings, all addresses of each, all contents of memory around them, every combination of processor features", "why_tests_cant": "A read past the end faults only for strings that end right before an unmapped page, and a wrong comparison needs particular bytes behind the end; there are too many alignments and lengths to try.", "anchors": ["options/ansi/x86_64/strcmp.cpp: __mlibc_strcmp_sse2, __mlibc_strcmp_sse4_2, __mlibc_strcmp_avx2, __mlibc_resolve_strcmp", "options/ansi/generic/string.cpp: __mlibc_strcmp_default"]}
{"id": "C94", "title": "strverscmp is an order of version strings", "statement": "strverscmp returns 0 for equal strings only, its sign changes when the arguments are swapped, and it is transitive, so that sorting with it is meaningful. Numbers without leading zeros at the same place are ordered by value, whatever follows them; numbers with leading zeros come before others and are ordered like decimal fractions; where the strings differ in other bytes, and where one digit string is empty, the order is that of the bytes.", "quantifier": "all strings", "why_tests_cant": "An order is a statement about all triples of strings.", "anchors": ["options/glibc/generic/string.cpp: strverscmp"]}
{"id": "C95", "title": "A loaded shared object is in memory as its file says, and objects do not disturb each other", "statement": "When the dynamic linker loads an ELF file, every byte of every loadable segment is afterwards at its place: the bytes of the file, then zeros up to the size in memory, with just the access rights of the segment. Nothing outside the address range of the object changes, the gaps cannot be accessed, and whatever else is loaded later, the images stay as they are. A file that is too short, not ELF or for another machine is refused, with memory unchanged.", "quantifier": "all ELF files with any number of segments of any sizes and alignments, all contents of memory, both ways of mapping and of choosing addresses, all sequences of loads", "why_tests_cant": "The cases (segments that end inside a page, more zeros than fit the last page of the file, read-only segments that need zeros) depend on sizes modulo the page size and on combinations of flags; a wrong byte or right shows up only in programs that use it.", "anchors": ["options/rtld/generic/linker.cpp: ObjectRepository::_fetchFromFile"]}
{"id": "C96", "title": "Shared libraries are searched for in the right places and in the right order, and a loaded one is used again", "statement": "A library that is not loaded yet is loaded from the first directory that has a usable file of its name, in the order of the ELF standard: DT_RPATH, LD_LIBRARY_PATH, DT_RUNPATH, the default directories, with $ORIGIN replaced by the directory of the object that asks; if there is none, nothing is loaded. A library that is known by the name or SONAME is used again, whatever files there are. A path that leads to a loaded file gives that library. In secure mode the environment has no influence. When a program starts, or dlopen returns, everything that a loaded object needs is loaded.", "quantifier": "all file systems, all sets of loaded objects, all names, all search paths with any number of entries, all graphs of dependencies", "why_tests_cant": "The result depends on the whole file system, on the environment and on what has been loaded before; a test sees one installation.", "anchors": ["options/rtld/generic/linker.cpp: ObjectRepository::requestObjectWithName, requestObjectAtPath, findLoadedObject, findObjectByFileId, _discoverDependencies", "options/rtld/generic/main.cpp: parseList, __dlapi_open"]}
{"id": "C97", "title": "longjmp returns from the call of setjmp again, with the registers and the signal mask it had", "statement": "setjmp returns 0 and writes nothing but the buffer. A later longjmp with this buffer, from whatever state of the machine, continues where setjmp returned: with the return address, the stack pointer and every register that the calling convention preserves as they were, and setjmp seems to return the value that was given, or 1 for 0. The same holds of sigsetjmp, and siglongjmp restores the signal mask of the time of sigsetjmp if and only if that was asked for.", "quantifier": "all six architectures, all contents of the registers and of the memory, all states in which longjmp is called, all values", "why_tests_cant": "Which registers are lost shows only if the compiler happens to keep something in them at that moment.", "anchors": ["options/internal/x86_64/setjmp.S: setjmp, sigsetjmp, longjmp", "options/internal/x86/setjmp.S", "options/internal/aarch64/setjmp.S", "options/internal/riscv64/setjmp.S", "options/internal/loongarch64/setjmp.S", "options/internal/m68k/setjmp.S", "options/ansi/generic/stdlib.cpp: __sigsetjmp, siglongjmp"]}
{"id": "C98", "title": "The floating point environment functions do what the C standard says on every processor", "statement": "feclearexcept, feraiseexcept and fetestexcept clear, raise and read exactly the flags of the set they get, across all floating point units of the processor, and leave the rounding mode alone. fesetround accepts the four modes and nothing else, sets all units, and fegetround returns what was set. fesetenv restores the flags and the mode that fegetenv saved, and FE_DFL_ENV clears both. feholdexcept clears the flags, feupdateenv adds those raised since to the saved ones. After any sequence of calls all units round the same way.", "quantifier": "all six architectures, all contents of control and status registers, all sets of exceptions, all sequences of calls", "why_tests_cant": "Two units with separate flags and modes have to be kept together; a test sees a few states of the flags on one processor.", "anchors": ["options/internal/x86_64/fenv.S", "options/internal/x86/fenv.S", "options/internal/aarch64/fenv.S", "options/internal/riscv64/fenv.S", "options/internal/loongarch64/fenv.S", "options/internal/m68k/fenv.S", "options/ansi/generic/fenv.cpp", "options/ansi/include/bits/ansi/fenv.h"]}
{"id": "C99", "title": "fnmatch returns 0 exactly for the strings its pattern matches", "statement": "For every pattern, string and set of flags fnmatch terminates, and returns 0 if and only if the pattern matches the string: a character matches itself (with FNM_CASEFOLD also its other case), '?' any character, '*' any string, a bracket expression the characters of its list or with '!' all others. With FNM_PATHNAME a slash is matched by a slash only, with FNM_PERIOD a leading period by a period only, with FNM_NOESCAPE a backslash is an ordinary character, with FNM_LEADING_DIR it is enough to match up to a slash.", "quantifier": "all patterns, strings and flags", "why_tests_cant": "A pattern with several stars is matched component by component with no backtracking; that this finds a match whenever there is one is a statement about all strings.", "anchors": ["options/posix/musl-generic-regex/fnmatch.c:fnmatch", "options/posix/musl-generic-regex/fnmatch.c:fnmatch_internal", "options/posix/musl-generic-regex/fnmatch.c:match_bracket", "options/posix/musl-generic-regex/fnmatch.c:pat_next"]}
{"id": "C100", "title": "floor, ceil, trunc, round, rint and modf return exactly the integers they are specified to", "statement": "For every finite argument and in every rounding mode: floor returns the largest integer not above it, ceil the smallest not below it, trunc its integer part, round the nearest integer with halves away from zero, rint and nearbyint the integer that the rounding mode chooses (with ties to even), modf the integer part and the exact rest. Every result, also a zero, has the sign of the argument. Infinities and NaNs are returned unchanged. lrint and lround return the same integers whenever the type can hold them. The same for the float variants.", "quantifier": "all bit patterns of double and float, all four rounding modes", "why_tests_cant": "There are 2^64 doubles and four modes; floor is written with two inexact additions whose rounding depends on the mode, floorf with a carry from the fraction into the exponent.", "anchors": ["options/ansi/musl-generic-math/floor.c:floor", "options/ansi/musl-generic-math/ceil.c:ceil", "options/ansi/musl-generic-math/trunc.c:trunc", "options/ansi/musl-generic-math/round.c:round", "options/ansi/musl-generic-math/rint.c:rint", "options/ansi/musl-generic-math/modf.c:modf", "options/ansi/musl-generic-math/floorf.c:floorf", "options/ansi/musl-generic-math/ceilf.c:ceilf", "options/ansi/musl-generic-math/lrint.c:lrint", "options/ansi/musl-generic-math/lround.c:lround"]}
{"id": "C101", "title": "fmod, remainder and remquo return the exact remainder for every pair of finite numbers", "statement": "For all finite x and finite nonzero y: fmod(x,y) = x - n*y exactly, for the integer n obtained by truncating x/y; the result has the sign of x (also when it is zero) and is smaller than y in magnitude. remainder and remquo return x - n*y exactly with n the integer nearest to x/y, an even one when two are equally near; remquo also stores the sign and the low 31 bits of n. Nothing is rounded, whatever the difference of the exponents. x = 0 gives x; y = 0, infinite x and NaNs give NaN; infinite y returns x. The same for the float variants.", "quantifier": "all pairs of bit patterns of double and of float", "why_tests_cant": "The loop runs once for each binary digit by which the exponents differ, up to 2098 times for double, and starts from normalised or subnormal significands; the pairs are 2^128.", "anchors": ["options/ansi/musl-generic-math/fmod.c:fmod", "options/ansi/musl-generic-math/remquo.c:remquo", "options/ansi/musl-generic-math/remainder.c:remainder", "options/ansi/musl-generic-math/fmodf.c:fmodf", "options/ansi/musl-generic-math/remquof.c:remquof"]}
{"id": "C102", "title": "scalbn, frexp, nextafter, ilogb and the functions on signs and classes return what C and IEEE 754 say, for every bit pattern and every rounding mode", "statement": "For every finite x and every int n, scalbn(x,n), ldexp(x,n) and scalbln(x,n) return the correctly rounded value of x*2^n in the rounding mode in force: one rounding only, also when the result is subnormal, and infinity or the largest number when it is too large; zeros, infinities and NaNs are returned as they are. frexp splits every finite nonzero x exactly into r*2^e with 1/2 <= |r| < 1 and the sign of x. ilogb and logb give the k with 2^k <= |x| < 2^(k+1). nextafter(x,y) is the representable number next to x in the direction of y, with no number between. fmax and fmin return the larger and the smaller argument, the other one when one is a NaN, and order -0 below +0. fdim is x-y rounded or +0. fabs and copysign change only the sign bit. fpclassify tells the five classes apart. significand(x) is x*2^-ilogb(x).", "quantifier": "all bit patterns of double and of float, all n, all four rounding modes", "why_tests_cant": "scalbn multiplies by powers of two up to three times, and the claim is that no chain of these products rounds twice, for 2^64 x and 2^32 n; the other functions range over all pairs of bit patterns.", "anchors": ["options/ansi/musl-generic-math/scalbn.c:scalbn", "options/ansi/musl-generic-math/ldexp.c:ldexp", "options/ansi/musl-generic-math/scalbln.c:scalbln", "options/ansi/musl-generic-math/nextafter.c:nextafter", "options/ansi/musl-generic-math/frexp.c:frexp", "options/ansi/musl-generic-math/ilogb.c:ilogb", "options/ansi/musl-generic-math/logb.c:logb", "options/ansi/musl-generic-math/fmax.c:fmax", "options/ansi/musl-generic-math/fmin.c:fmin", "options/ansi/musl-generic-math/fdim.c:fdim", "options/ansi/musl-generic-math/fabs.c:fabs", "options/ansi/musl-generic-math/copysign.c:copysign", "options/ansi/musl-generic-math/__fpclassify.c:__fpclassify", "options/ansi/musl-generic-math/significand.c:significand"]}
{"id": "C103", "title": "sqrt and sqrtf return the correctly rounded square root of every number, in every rounding mode", "statement": "For every positive finite x, sqrt(x) is the floating point number nearest to the real square root in the mode to nearest, the smallest number not below it when rounding upwards, and the largest not above it when rounding downwards or towards zero; in particular the root of a square is exact. Zeros are returned as they are, +inf gives +inf, and negative numbers, -inf and NaNs give NaN. The same for sqrtf.", "quantifier": "all bit patterns of double and of float, all four rounding modes", "why_tests_cant": "The digits of the root come from 54 dependent steps on two words with borrows and carries; wrong carries show only for rare digit patterns among 2^64 arguments.", "anchors": ["options/ansi/musl-generic-math/sqrt.c:sqrt", "options/ansi/musl-generic-math/sqrtf.c:sqrtf"]}
{"id": "C104", "title": "glob returns the existing files that match the pattern, each once and in order", "statement": "For every pattern, every file system that does not change meanwhile and every combination of flags: if glob returns 0, the new names are exactly those of the existing pathnames (of fewer than PATH_MAX bytes) that arise when each component of the pattern without special characters stands for itself without its quoting backslashes, and each component with '*', '?' or a bracket expression for the entries of its directory that fnmatch accepts. Every name occurs once, in the order of strcmp unless GLOB_NOSORT, with a slash behind directories under GLOB_MARK, behind gl_offs null pointers or the names found before, and followed by a null pointer. Without such a file the pattern itself is returned under GLOB_NOCHECK, otherwise GLOB_NOMATCH; GLOB_ABORTED says that the search was stopped by an error.", "quantifier": "all patterns, file systems, fnmatch relations, error functions and flags", "why_tests_cant": "Patterns and trees are unbounded, types of directory entries are used to skip calls of stat, and quoted slashes, unclosed brackets and names near PATH_MAX need special treatment.", "anchors": ["options/posix/musl-generic-regex/glob.c:glob", "options/posix/musl-generic-regex/glob.c:do_glob", "options/posix/musl-generic-regex/glob.c:append"]}
{"id": "C105", "title": "mblen, mbtowc, wctomb, mbstowcs, wcstombs and mbrtoc32 convert every character, in every history of calls", "statement": "In every history of calls: mblen and mbtowc report the length of the UTF-8 character at the pointer if one starts within the limit (mbtowc stores it), 0 for the null character, -1 otherwise; wctomb writes the encoding and returns its length, -1 above the last code point; a null pointer resets the state and gives 0. mbstowcs and wcstombs convert whole strings, stop at the limit, terminate if there is room, report EILSEQ for ill-formed input, and give the needed length for a null destination. mbrtoc32 and c32rtomb do what mbrtowc and wcrtomb do for 32-bit characters.", "quantifier": "all byte strings and limits, all characters, all sequences of calls on the hidden conversion state", "why_tests_cant": "The functions share hidden state, so an answer may depend on all earlier calls; ill-formed and truncated strings are too many to enumerate.", "anchors": ["options/ansi/generic/stdlib.cpp:mblen", "options/ansi/generic/stdlib.cpp:mbtowc", "options/ansi/generic/stdlib.cpp:wctomb", "options/ansi/generic/stdlib.cpp:mbstowcs", "options/ansi/generic/stdlib.cpp:wcstombs", "options/ansi/generic/uchar.cpp:mbrtoc32"]}
{"id": "C106", "title": "relocation puts into memory exactly what the records demand, and every thread finds its own variables", "statement": "When the dynamic linker has processed a set of objects, every relocation record is met in the final memory: the address of the definition the symbol is bound to (plus addend), the base plus addend, the result of the resolver, the copied initial value, the TLS module and offset; and no other byte has changed. A DT_RELR table moves exactly the listed words by the base. Thread-local variables accessed through __tls_get_addr, a fixed offset or a TLS descriptor are at the same place in the calling thread's block of the defining object. Lazily bound PLT slots lead to the same function as eagerly bound ones. Undefined strong symbols end the program.", "quantifier": "all sets of objects with records that do not overlap, all memory contents, addresses, symbols, threads", "why_tests_cant": "Memory images, overlaps and load addresses cannot be enumerated; an error shows only in the object whose record is handled wrongly.", "anchors": ["options/rtld/generic/linker.cpp:_processRelocations", "options/rtld/generic/linker.cpp:_processStaticRelocations", "options/rtld/generic/linker.cpp:_processLazyRelocations", "options/rtld/generic/linker.cpp:processLateRelocation", "options/rtld/generic/linker.cpp:accessDtvIndex", "options/rtld/generic/main.cpp:lazyRelocate", "options/rtld/x86_64/runtime.S"]}
{"id": "C107", "title": "strcoll orders strings by the weights of the locale, and strxfrm keeps that order", "statement": "With the tables of a locale strcoll and wcscoll compare two strings by their keys: in every pass the weights of the collating elements, in the direction of the pass, and if the pass counts ignored elements also the distances between the elements that are not ignored. So strcoll is a total preorder: reflexive, antisymmetric up to sign and transitive. strxfrm and wcsxfrm transform every string to one that does not depend on the destination, return its length, write nothing behind the n units of the destination, deliver it with a null if it fits, and comparing two transformed strings unit by unit gives the sign of strcoll.", "quantifier": "all tables of a locale, all pairs and triples of strings, all destination sizes", "why_tests_cant": "Transitivity and agreement with strxfrm relate all pairs and triples of strings under all tables; tests use one locale and few words.", "anchors": ["options/internal/include/mlibc/collation.hpp:coll_seq", "options/internal/include/mlibc/collation.hpp:strcoll", "options/internal/include/mlibc/collation.hpp:do_xfrm", "options/ansi/generic/string.cpp:strcoll", "options/ansi/generic/string.cpp:strxfrm", "options/ansi/generic/string.cpp:wcscoll", "options/ansi/generic/string.cpp:wcsxfrm"]}
{"id": "C108", "title": "Character classes and case maps are those of the locale, on every character", "statement": "In the C locale isalpha and the eleven other class functions, their wide forms and iswctype with the number wctype gives for the name are true of exactly the ASCII characters ISO C lists, for every unsigned char, EOF and every wint_t; tolower and toupper and their wide forms exchange A-Z and a-z and return everything else, EOF included, unchanged. In any other locale, whatever the layout of its tables, they answer the class definitions and maps the tables were compiled from, classes and maps are found by name, an unknown name gives 0, and EOF is in no class. The variants with a locale argument answer for that locale, and isascii holds exactly for 0 to 127.", "quantifier": "all characters and EOF, all class definitions and maps, all layouts of the tables", "why_tests_cant": "A wide class function has 2^32 arguments and the tables of a locale are unbounded data; tests look at some letters of one locale.", "anchors": ["options/internal/generic/charset.cpp:wctype_table_lookup", "options/internal/generic/charset.cpp:wctrans_table_lookup", "options/internal/generic/charset.cpp:ctype_class_check", "options/internal/generic/charset.cpp:charset::wctype", "options/internal/generic/charset.cpp:charset::iswctype", "options/internal/generic/wide.cpp:find_wctrans", "options/internal/generic/c-locale-defaults.cpp:cLocaleCtypeClass", "options/ansi/generic/ctype.cpp:isalpha", "options/ansi/generic/ctype.cpp:tolower", "options/posix/generic/posix_ctype.cpp:tolower_l"]}
{"id": "C109", "title": "regexec reports a match iff some part of the string matches the regular expression", "statement": "For every regular expression (compiled with REG_NOSUB and without back references) and every string of valid characters, whatever the flags REG_NOTBOL, REG_NOTEOL, REG_NEWLINE and REG_ICASE are, regexec returns 0 iff there are two indices such that the characters between them match the expression: a bracket matches one character that one of its items allows, ^ and $ and the word assertions match the empty string where they hold, a concatenation matches one part after the other, an alternation either side, and r{m,n} between m and n consecutive matches of r.", "quantifier": "all regular expressions, all subject strings, all flags and locales", "why_tests_cant": "Expressions and subjects are unbounded, and the nested expansion of counted repetitions gives wrong automata for deeply nested expressions only; test suites match a list of pairs.", "anchors": ["options/posix/musl-generic-regex/regcomp.c:regcomp", "options/posix/musl-generic-regex/regcomp.c:tre_expand_ast", "options/posix/musl-generic-regex/regcomp.c:tre_copy_ast", "options/posix/musl-generic-regex/regcomp.c:tre_compute_nfl", "options/posix/musl-generic-regex/regcomp.c:tre_match_empty", "options/posix/musl-generic-regex/regcomp.c:tre_make_trans", "options/posix/musl-generic-regex/regcomp.c:tre_ast_to_tnfa", "options/posix/musl-generic-regex/regexec.c:tre_tnfa_run_parallel", "options/posix/musl-generic-regex/regexec.c:regexec"]}
{"id": "C110", "title": "regcomp reads every extended regular expression as the POSIX grammar does", "statement": "For every text of the grammar of extended regular expressions (ordinary and quoted characters, '.', bracket expressions with characters, ranges, classes and negation, '^', '$', groups, repetitions with counts up to RE_DUP_MAX, concatenation, alternation; REG_ICASE not set), regcomp succeeds, and regexec then reports a match iff some part of the string matches the expression the text denotes. regcomp comes to an end for every text, also for malformed ones.", "quantifier": "all texts, all subject strings, with and without REG_NEWLINE, all locales", "why_tests_cant": "Texts are unbounded and nest without limit; the precedence of the operators, the complement of a bracket expression and the meaning of '-' and ']' in one depend on the context in which a character stands.", "anchors": ["options/posix/musl-generic-regex/regcomp.c:tre_parse", "options/posix/musl-generic-regex/regcomp.c:parse_atom", "options/posix/musl-generic-regex/regcomp.c:parse_bracket", "options/posix/musl-generic-regex/regcomp.c:parse_bracket_terms", "options/posix/musl-generic-regex/regcomp.c:parse_dup", "options/posix/musl-generic-regex/regcomp.c:parse_dup_count", "options/posix/musl-generic-regex/regcomp.c:marksub", "options/posix/musl-generic-regex/regcomp.c:regcomp"]}
{"id": "C111", "title": "64-bit atomic operations are atomic also on a machine without 64-bit atomic instructions", "statement": "However any number of threads interleave their calls of the 64-bit atomic load, store, exchange, compare-exchange and fetch-add on any objects of an m68k, every call takes effect at one moment between its call and its return: the results and the final values are those of executing the operations one at a time in the order of those moments. No load sees half of a store and no addition is lost. While a call is in progress, some thread in a call can go on.", "quantifier": "all numbers of threads, all sequences of calls, all schedules, all addresses and values, every assignment of locks to addresses", "why_tests_cant": "A torn value or a lost update shows only in a few of the exponentially many interleavings of the half-word accesses, and the choice of lock depends on the address.", "anchors": ["options/internal/m68k/atomics.cpp:mlibc_atomic_load_8", "options/internal/m68k/atomics.cpp:mlibc_atomic_store_8", "options/internal/m68k/atomics.cpp:mlibc_atomic_exchange_8", "options/internal/m68k/atomics.cpp:mlibc_atomic_compare_exchange_8", "options/internal/m68k/atomics.cpp:mlibc_atomic_fetch_add_8", "options/internal/m68k/atomics.cpp:get_lock"]}
{"id": "C112", "title": "setlocale finds in the locale archive what localedef wrote into it, and survives any archive", "statement": "For every locale archive that localedef can write (a hash table with double hashing and a free place, filled in any order), the search ends and finds the record of the first of the candidate names that the archive has, or says that it has none of them; the category and each of its fields (texts, lists of texts, byte strings, numbers) are read back with the values written. For a file with arbitrary bytes in its place, setlocale ends, reads nothing outside the file and takes over no text without an end.", "quantifier": "all tables and orders of insertion, all names, all categories and fields, all byte sequences as archive files", "why_tests_cant": "Collisions, the probe sequence and the position of fields depend on the whole archive; the malformed files are unbounded in number.", "anchors": ["options/internal/generic/locale.cpp:findLocaleRecord", "options/internal/generic/locale.cpp:findLocaleArchiveRecord", "options/internal/generic/locale.cpp:parseCategoryInfo", "options/internal/include/mlibc/locale-archive-parsing.hpp:nameHashVal", "options/internal/include/mlibc/locale-archive-parsing.hpp:apply_parsers", "options/internal/include/mlibc/locale-archive-parsing.hpp:parse_stringlist", "options/internal/include/mlibc/locale-archive-parsing.hpp:parse_string", "options/internal/include/mlibc/locale-archive-parsing.hpp:categoryMagic"]}
{"id": "C113", "title": "Arithmetic of timeval is exact, and the clock is set to the time given", "statement": "For all times with microseconds below a second, timeradd and timersub give the exact sum and difference as such a time whenever it can be represented; timercmp orders times; timerisset says whether a time is zero. settimeofday sets the clock to the time given and refuses microseconds outside 0..999999; gettimeofday is the clock rounded down to a microsecond.", "quantifier": "all pairs of times in the 64-bit range", "why_tests_cant": "The carry and the overflow depend on the values of both fields; 2^128 pairs cannot be tried.", "anchors": ["options/posix/generic/sys-time.cpp:timeradd", "options/posix/generic/sys-time.cpp:timersub", "options/posix/generic/sys-time.cpp:settimeofday", "options/posix/generic/sys-time.cpp:gettimeofday", "options/posix/generic/sys-time.cpp:timerisset", "options/posix/include/sys/time.h:timercmp"]}
{"id": "C114", "title": "writev without kernel support writes the concatenation in one piece", "statement": "Where the system has no writev call, writev passes the data of all buffers, in order and without a gap, to one call of write and returns what it returns; more than SSIZE_MAX bytes, and a number of buffers that is not positive, give EINVAL and write nothing.", "quantifier": "all numbers and sizes of buffers, all contents", "why_tests_cant": "The sizes are unbounded; the overflow of the sum shows only with sizes that cannot be allocated in a test.", "anchors": ["options/posix/generic/sys-uio.cpp:writev"]}
{"id": "C115", "title": "Symbol versions come from the version tables and bind by name", "statement": "For every shared object with well-formed tables of version definitions and requirements, an index in the table of symbol versions stands for the version defined with it or required with it from a dependency. A reference to a version binds to a definition in the dependency exactly if the names of the versions agree, whether or not the version is the default one. An object that requires a missing version cannot be loaded, which dlopen reports; weak requirements may be missing.", "quantifier": "all images, tables, numbers of versions and dependencies", "why_tests_cant": "The tables are data from other programs; the number of records and their layout are unbounded.", "anchors": ["options/rtld/generic/linker.cpp:ObjectRepository::_parseVerdef", "options/rtld/generic/linker.cpp:ObjectRepository::_parseVerneed", "options/rtld/generic/linker.hpp:SymbolVersion"]}
{"id": "C116", "title": "strfmon writes amounts as the locale says and stays in its buffer", "statement": "For every format, locale and list of amounts strfmon writes nothing outside the buffer, and after a success the buffer holds a string of the length it returns. An amount is written with the sign, the currency symbol and the separator at the places which the locale prescribes for its sign, padded with spaces to the field width, if the result fits with its terminator; if not, E2BIG is reported. A malformed format gives EINVAL.", "quantifier": "all formats, locales, amounts and buffer sizes", "why_tests_cant": "Flags, widths, precisions, five places of the sign, both sides of the symbol and two formats multiply; formats and buffers are unbounded.", "anchors": ["options/posix/generic/monetary.cpp:strfmon", "options/posix/generic/monetary.cpp:strfmon_l", "options/posix/generic/monetary.cpp:strfmon_internal", "options/posix/generic/monetary.cpp:BufferSink"]}
{"id": "C117", "title": "regcomp reads basic regular expressions as their grammar says", "statement": "For every text of the grammar of basic regular expressions regcomp without REG_EXTENDED succeeds, and regexec then finds a match in a string exactly if some part of it matches the expression which the text denotes; *, ^ and $ are special or ordinary depending on their place. regcomp comes to an end for every text.", "quantifier": "all texts, all subject strings, all flags except REG_ICASE", "why_tests_cant": "Expressions nest without bound, and the meaning of three characters depends on what stands before and behind them.", "anchors": ["options/posix/musl-generic-regex/regcomp.c:tre_parse", "options/posix/musl-generic-regex/regcomp.c:parse_atom", "options/posix/musl-generic-regex/regcomp.c:parse_dup", "options/posix/musl-generic-regex/regexec.c:regexec"]}
{"id": "C118", "title": "Temporary files are new, private and never shared", "statement": "mkstemp, mkostemp, mkstemps and mkostemps create a file that did not exist at that moment, named by the template with digits in place of the six letters X, with permissions for the owner only, open for reading and writing whatever the flags; any other text or suffix length gives EINVAL and changes nothing; a call that fails creates nothing. However calls of several processes interleave, no two get the same file. mkdtemp does the same with directories. The name of the file of tmpfile is gone when it returns. tmpnam returns a name that no file has. A call that fails sets errno.", "quantifier": "all templates and suffix lengths, all flags, all contents of the file system and changes of it by others between the calls, all errors of the kernel, all interleavings of any number of callers", "why_tests_cant": "Races between callers and other programs, and a million candidate names, cannot be enumerated.", "anchors": ["options/internal/generic/stdlib.cpp:mkostemps", "options/posix/generic/posix_stdlib.cpp:mkdtemp", "options/posix/generic/posix_stdlib.cpp:mkostemps", "options/ansi/generic/stdio.cpp:tmpfile", "options/ansi/generic/stdio.cpp:tmpnam"]}
{"id": "C119", "title": "An fd_set behaves as a set of descriptors", "statement": "After FD_ZERO, FD_ISSET is nonzero exactly for the descriptors added with FD_SET and not removed with FD_CLR since, for every history of calls; a descriptor that does not fit into the object ends the process before any memory outside of it is read or written.", "quantifier": "all histories of calls, all descriptors of type int, both word sizes, all previous contents of the object", "why_tests_cant": "Histories are unbounded, and one wrong mask shows only for particular pairs of descriptors.", "anchors": ["options/posix/generic/sys-select.cpp:__FD_SET", "options/posix/generic/sys-select.cpp:__FD_CLR", "options/posix/generic/sys-select.cpp:__FD_ISSET", "options/posix/generic/sys-select.cpp:__FD_ZERO"]}
{"id": "C120", "title": "Signal names and signal numbers are inverse", "statement": "str2sig accepts exactly the names of signals, RTMIN+n, RTMAX-n and decimal numbers that POSIX lists, and gives the number the name stands for; the name that sig2str gives for any signal number is one that str2sig turns back into that number; other strings and numbers fail.", "quantifier": "all strings, all signal numbers", "why_tests_cant": "The strings are unbounded, and wrong acceptance shows only for particular malformed names.", "anchors": ["options/posix/generic/posix_signal.cpp:sig2str", "options/posix/generic/posix_signal.cpp:str2sig"]}
{"id": "C121", "title": "Attributes of threads, mutexes and condition variables hold what was set and take effect", "statement": "After every history of pthread_attr_set*, pthread_mutexattr_set* and pthread_condattr_set* calls, each pthread_*attr_get* function gives what the last successful call set, or the default; calls succeed exactly for the arguments POSIX allows; a thread, mutex or condition variable made from the attributes has them.", "quantifier": "all histories of calls, all arguments, all addresses of new stacks", "why_tests_cant": "Histories are unbounded, and a setter that disturbs another attribute shows only in particular orders of calls.", "anchors": ["options/posix/generic/pthread.cpp:pthread_attr_setdetachstate", "options/posix/generic/pthread.cpp:pthread_attr_setstack", "options/posix/generic/pthread.cpp:pthread_attr_getaffinity_np", "options/posix/generic/pthread.cpp:pthread_attr_setsigmask_np", "options/posix/generic/pthread.cpp:pthread_getattr_np", "options/posix/generic/pthread.cpp:pthread_mutexattr_settype", "options/posix/generic/pthread.cpp:pthread_condattr_setclock", "options/internal/generic/threads.cpp:thread_create", "options/internal/generic/threads.cpp:thread_mutex_init", "sysdeps/linux/generic/thread.cpp:PrepareStack"]}
{"id": "C122", "title": "Wide character streams write and read exactly the characters, in order", "statement": "fputwc and fputws write the UTF-8 encoding of exactly their characters; fgetwc reads the next character and takes exactly its bytes; fgetws stores the next line, at most n-1 characters, and returns its buffer, or a null pointer at the end of the file or on an error; ungetwc gives a character back; failures return WEOF or -1 and set the error indicator; an orientation once set never changes.", "quantifier": "all texts, all lengths of lines and buffers, all positions of errors and of the end of the file, all orientations", "why_tests_cant": "Texts are unbounded, and a mistake shows only where a character lies across an internal buffer boundary or on a device that fails.", "anchors": ["options/ansi/generic/stdio.cpp:fputwc_unlocked", "options/ansi/generic/stdio.cpp:fgetwc_unlocked", "options/ansi/generic/stdio.cpp:ungetwc_unlocked", "options/ansi/generic/stdio.cpp:fputws_unlocked", "options/ansi/generic/stdio.cpp:fgetws", "options/ansi/generic/stdio.cpp:fwide"]}
{"id": "C123", "title": "Locks on sections of a file are exclusive", "statement": "lockf: a process gets a section with F_LOCK or F_TLOCK exactly if no other process has locked a byte of it, and then every byte of it is the caller's until F_ULOCK; F_TLOCK fails with EAGAIN or EACCES and F_LOCK waits otherwise; F_TEST fails with EACCES exactly then; F_ULOCK releases the caller's bytes of the section and nothing else; sections may lie before the position of the file or have no end; at no time is a byte locked by two processes.", "quantifier": "all histories of calls by any number of processes, all positions and signed sizes, all errors of the kernel", "why_tests_cant": "The answers depend on the interleaving of processes and on overlaps of sections of arbitrary size.", "anchors": ["options/posix/generic/unistd.cpp:lockf"]}
{"id": "C124", "title": "Terminal speeds and the raw mode change exactly what they should", "statement": "cfsetospeed and cfsetispeed accept exactly the speeds that exist and change nothing otherwise; cfgetospeed and cfgetispeed give the speeds that were set last, where input speed 0 stands for the output speed; setting one speed does not change the other; cfmakeraw changes exactly the documented flags and control characters.", "quantifier": "all terminal structures, all 2^32 speeds, all histories of calls", "why_tests_cant": "A lost or additional bit in a mask shows only for structures with that bit.", "anchors": ["options/posix/generic/termios.cpp:cfsetospeed", "options/posix/generic/termios.cpp:cfsetispeed", "options/posix/generic/termios.cpp:cfgetispeed", "options/posix/generic/termios.cpp:cfmakeraw"]}
{"id": "C125", "title": "Duplicated descriptors and pseudo-terminals leave exactly the right descriptors", "statement": "dup gives the lowest free number; dup2 and dup3 make exactly the number asked for another name of the same file, dup2 of a number to itself changes nothing and succeeds; openpty gives two new descriptors; login_tty makes the terminal the three standard descriptors; forkpty gives the parent the master and the child the slave; a call that fails leaves the descriptors as they were and sets errno.", "quantifier": "all tables of descriptors, all arguments, all limits, all points of failure", "why_tests_cant": "A leaked or lost descriptor shows only for particular tables and particular failures of the kernel.", "anchors": ["options/posix/generic/unistd.cpp:dup2", "options/posix/generic/unistd.cpp:dup3", "options/bsd/generic/pty.cpp:openpty", "options/bsd/generic/pty.cpp:login_tty", "options/bsd/generic/pty.cpp:forkpty", "sysdeps/linux/generic/sysdeps.cpp:Sysdeps<Dup2>"]}
{"id": "C126", "title": "Names of shared memory never leave their directory", "statement": "shm_open and shm_unlink: slashes at the start of the name do not count; if the rest is the name of a file (not empty, without a slash, not . or ..) of at most 255 characters, the file used is the one with that name in /dev/shm; a longer name is refused with ENAMETOOLONG and every other with EINVAL; nothing is written outside the internal buffer.", "quantifier": "all names, of every length and content", "why_tests_cant": "Names are unbounded; a path that escapes or overruns the buffer needs a particular length or form.", "anchors": ["options/posix/generic/sys-mman.cpp:shm_mapname", "options/posix/generic/sys-mman.cpp:shm_open", "options/posix/generic/sys-mman.cpp:shm_unlink"]}
{"id": "C127", "title": "Diagnostics print exactly their lines", "statement": "error and error_at_line print one line: the program, the place, the message and, if an error number is given, its text; error_message_count is the number of lines printed; with error_one_per_line a call for the same line of the same file as the last is not shown; the process ends with the first status that is not 0; warn and err print the text of errno at the time of the call, warnx and errx only the message.", "quantifier": "all histories of calls, all texts, places, error numbers and statuses, all settings of error_one_per_line between calls", "why_tests_cant": "What a call prints depends on the history of calls and on combinations of its arguments.", "anchors": ["options/glibc/generic/error.cpp:error", "options/glibc/generic/error.cpp:error_at_line", "options/glibc/generic/err.cpp:vwarn", "options/glibc/generic/err.cpp:vwarnx"]}
{"id": "C128", "title": "Skipping an encoded domain name gives exactly its length", "statement": "dn_skipname: if the bytes begin with an encoded name (labels of 1 to 63 bytes behind their lengths, then an empty label or a pointer), the result is the length of that name, whatever is behind it; otherwise it is -1; nothing outside the bytes given is read.", "quantifier": "all sequences of bytes, of every length", "why_tests_cant": "Messages come from the network; a read outside of the message needs a length byte that points behind its end.", "anchors": ["options/glibc/generic/resolv.cpp:dn_skipname"]}
{"id": "C129", "title": "A file window holds exactly the file", "statement": "The internal reader of whole files (locale archives, time zones): whatever sizes the kernel gives for each read, the memory afterwards holds exactly the first bytes of the file, as many as its size was when it was opened; if the file has become shorter or a read fails, the process ends with a message instead of using other bytes; nothing is written outside the memory.", "quantifier": "all files, all sizes, all sequences of sizes of reads, all points of failure", "why_tests_cant": "Short reads happen at the kernel's discretion; the sequences of sizes are unbounded.", "anchors": ["options/internal/include/mlibc/file-window.hpp:file_window"]}
{"id": "C130", "title": "Numbers in DNS messages are most significant byte first", "statement": "ns_put16 and ns_put32 store two or four bytes, most significant first, and no others; ns_get16 and ns_get32 give the number that such bytes stand for; what was put is what one gets.", "quantifier": "all numbers, all bytes, all positions in a message", "why_tests_cant": "There are 2^32 numbers; the shifts of the code overflow int for large first bytes if a conversion is missing.", "anchors": ["options/bsd/generic/arpa-nameser.cpp:ns_get16", "options/bsd/generic/arpa-nameser.cpp:ns_get32", "options/bsd/generic/arpa-nameser.cpp:ns_put16", "options/bsd/generic/arpa-nameser.cpp:ns_put32"]}
{"id": "C131", "title": "swab swaps exactly the pairs", "statement": "swab of n bytes stores the pairs of the first n bytes swapped; the last byte of an odd number is not copied, a negative number copies nothing, and no other memory is read or written.", "quantifier": "all contents, all lengths, even, odd and negative", "why_tests_cant": "Contents and lengths are unbounded.", "anchors": ["options/posix/generic/unistd.cpp:swab"]}
{"id": "C132", "title": "The name of the file of logins survives every history", "statement": "utmpname: after any history of calls, with memory short at any point, the name is that of the last call that returned 0; no memory is used after it was freed, none is freed twice, and none is lost.", "quantifier": "all histories of calls, all names, all points at which memory is short", "why_tests_cant": "Histories are unbounded, and a wrong free shows only in some orders of default and other names.", "anchors": ["options/linux/generic/utmp.cpp:utmpname"]}
{"id": "C133", "title": "utimes, futimes, lutimes and utime set exactly the times given", "statement": "Both times of exactly the file meant are set to the microsecond, or to the time now without an argument; microseconds that are not in a second give EINVAL and change nothing; no value is mistaken for one of the kernel's special numbers.", "quantifier": "all files, all times, valid and invalid, all errors of the kernel", "why_tests_cant": "The range of the times has 2^128 pairs; a collision with a special number needs one of them.", "anchors": ["options/posix/generic/posix_time.cpp:utimes", "options/posix/generic/posix_time.cpp:futimes", "options/posix/generic/posix_time.cpp:lutimes", "options/posix/generic/utime.cpp:utime"]}
{"id": "C134", "title": "backtrace stores the innermost frames and never more than asked", "statement": "backtrace returns the number of frames, at most the size; that many places at the start of the array hold the call sites of the innermost frames in order; no other place changes; without an unwinder or with a size that is not positive it returns 0.", "quantifier": "all stacks of every depth, all sizes, all arrays", "why_tests_cant": "The depth of a stack is unbounded; the unwinder calls back until it is stopped.", "anchors": ["options/glibc/generic/execinfo.cpp:backtrace"]}
{"id": "C135", "title": "ppoll waits with the given mask for the given time", "statement": "ppoll waits with the given set of blocked signals for the given time, for ever without one, and restores the set afterwards, also where the kernel has only poll.", "quantifier": "all times, all sets of signals, all results of the wait", "why_tests_cant": "The times have 2^64 seconds; a wrong conversion shows at its limits only.", "anchors": ["options/posix/generic/poll.cpp:ppoll"]}
{"id": "C136", "title": "The name server is the first one in the configuration", "statement": "The resolver uses the first address in /etc/resolv.conf: the first word after the keyword nameserver at the start of a line; other lines, and lines that are too long for the buffer, do no harm; nothing outside the buffer is read.", "quantifier": "all contents of the file without null bytes, all lengths of lines", "why_tests_cant": "Contents are unbounded; the boundary of the buffer shows for a few lengths of lines only.", "anchors": ["options/posix/generic/resolv_conf.cpp:get_nameserver"]}
{"id": "C137", "title": "Device numbers and their parts determine each other", "statement": "major and minor of makedev(a, b) are a and b, makedev of the parts of a number is the number, different parts give different numbers, and small parts are where the kernel has them.", "quantifier": "all numbers of 64 bits and all parts of 32 bits", "why_tests_cant": "There are 2^64 numbers; a wrong mask shows for large parts only.", "anchors": ["options/internal/include/bits/sysmacros.h:__mlibc_dev_makedev"]}
{"id": "C138", "title": "Message queues: names and receiving", "statement": "mq_receive gives the message of the highest priority that came first, its priority and its length, and takes exactly it out; a name means the same queue with and without its leading slash; failures change nothing and have the right error.", "quantifier": "all queues, all messages and priorities, all names, all sizes of buffers", "why_tests_cant": "Queues are unbounded; the kernel and the library share the work.", "anchors": ["options/posix/generic/mqueue.cpp:mq_receive", "options/posix/generic/mqueue.cpp:mq_open", "options/posix/generic/mqueue.cpp:mq_unlink", "sysdeps/linux/generic/sysdeps.cpp:Sysdeps<MqReceive>"]}
{"id": "C139", "title": "statx on top of stat tells the truth", "statement": "Where the kernel has only stat, statx gives exactly the information of stat; it claims in its mask only members that it knows; flags that stat does not have are not passed on, all others are.", "quantifier": "all files, all flags, all errors", "why_tests_cant": "The information has 2^500 values; a wrong member shows only where two members differ.", "anchors": ["options/linux/generic/sys-statx.cpp:statx"]}
{"id": "C140", "title": "recvfrom on top of recvmsg gives the number of bytes and the address", "statement": "Where the kernel has only recvmsg, recvfrom returns the number of bytes received and the length of the address; on an error it returns -1 and leaves the length as it was.", "quantifier": "all numbers of bytes, all addresses, all errors", "why_tests_cant": "A conversion to a smaller type shows only for more than 2^31 bytes.", "anchors": ["options/posix/generic/sys-socket.cpp:recvfrom"]}
{"id": "C141", "title": "Asynchronous requests reach the kernel once, and so do their completions the program", "statement": "Every asynchronous request that is waiting is given to the kernel exactly once and in order, or the process ends because a submission failed; every completion that the kernel has put into its ring is handled exactly once and in order, for every state of the 32-bit counters, including where they wrap around.", "quantifier": "all sizes of the rings, all states of the counters, all lists of requests, all histories of arriving completions, all failures", "why_tests_cant": "The counters wrap around after 2^32 requests; the moments at which completions arrive cannot be chosen by a test.", "anchors": ["sysdeps/linux/generic/posix/aio.cpp:io_uring_instance::enqueue", "sysdeps/linux/generic/posix/aio.cpp:AioWorkerContext::drainQueue", "sysdeps/linux/generic/posix/aio.cpp:AioWorkerContext::handle_completions"]}
{"id": "C142", "title": "A list of asynchronous requests is announced once, when all of it is done", "statement": "lio_listio without waiting sends its notification exactly once, when every request of the list to read or to write is complete, however submissions and completions interleave, and at once if there is none; with waiting it sends none; the call reports an error exactly if the list has an invalid request, invalid requests get the error EINVAL, null pointers and LIO_NOP are skipped; requests are for the number of bytes that was given.", "quantifier": "all lists, all opcodes and sizes, all interleavings of submissions and completions", "why_tests_cant": "Interleavings of the caller and the worker cannot be enumerated by tests; a size that needs more than 32 bits needs a file of that size.", "anchors": ["sysdeps/linux/generic/posix/aio.cpp:Sysdeps<AioListio>", "sysdeps/linux/generic/posix/aio.cpp:AioWorkerContext::handle_cqe"]}
{"id": "C143", "title": "The life of an asynchronous request as its caller sees it", "statement": "While a request is running, aio_error is EINPROGRESS and aio_return fails; when it is finished, aio_error is its error and aio_return its result, once; then both fail until the structure is used again. aio_suspend does not wait if a request is finished, succeeds only if one is, and fails with EAGAIN only if the time is over.", "quantifier": "all histories of submissions, completions, cancellations and queries, all results, all lists, all sequences of answers of the kernel", "why_tests_cant": "Histories are unbounded and the order of completions is the kernel's.", "anchors": ["sysdeps/linux/generic/posix/aio.cpp:Sysdeps<AioError>", "sysdeps/linux/generic/posix/aio.cpp:Sysdeps<AioReturn>", "sysdeps/linux/generic/posix/aio.cpp:Sysdeps<AioSuspend>", "sysdeps/linux/generic/posix/aio.cpp:AioWorkerContext::handle_cqe"]}
