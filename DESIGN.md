# Formal model of mlibc in Lean 4: design

Target: managarm/mlibc, sources under `/repo` (read as text, never built).
Model and proofs: `/verif/lean/Verif/`. Properties: `properties.jsonl` (C01...).
Status per property: `MANIFEST.json`. Mutation log: `seeded/LOG.jsonl`.

## 1. Trusted base

* Lean 4.33.0's kernel. No `sorry`, `admit`, own axioms, `native_decide`, `bv_decide`.
* Axioms used: at most `propext`, `Classical.choice`, `Quot.sound`
  (`#print axioms` over every theorem of MANIFEST.json is part of each milestone).
* The faithfulness of the hand translation C++ -> Lean. Every definition that models code
  cites file and lines; simplifications are stated in the same comment.
* Compiler, hardware, kernel (`sys_*` calls), `frg::*` containers (their source is not in the
  repository) are outside. Where a modelled function calls them, they are parameters or are
  represented by the obvious mathematical object (`frg::vector` = `List`, `frg::hash_map` = association).

## 2. Modelling conventions

* `Verif/Base.lean` defines `Res α`: `ok a`, `ub` (access outside the object / undefined
  behaviour), `panic` (a failed `__ensure`, `panicLogger`, `__builtin_trap`). A theorem "`f x = .ok r`"
  therefore contains memory safety and absence of aborts.
* Read-only strings: the argument pointer is modelled by the list of bytes from the pointer to the end of
  the object; reading past the end of the list is `ub`. NUL-terminated string `s` is `s ++ 0 :: rest`
  with `0 ∉ s` and arbitrary `rest`, so "never reads past the terminator" is the independence from
  (possible absence of) `rest`.
* Writes with possible aliasing (memcpy, memmove, memset, qsort): flat memory `Nat → UInt8` and
  addresses as `Nat` (no address wrap-around).
* Machine integers: `BitVec`/`UIntN`/explicit ranges whenever the property is about overflow,
  otherwise unbounded `Int`/`Nat`, stated at the definition.
* Loops are structural recursion on the data or on fuel; where fuel is used the theorem states
  that a computable fuel suffices, so termination is included.
* Concurrency: interleaving small-step systems over an arbitrary set of threads, one atomic operation or
  futex call per step; sequentially consistent memory (the code's acquire/release orders are not modelled
  as weaker); `futex_wait` compares and sleeps atomically; spurious wake-ups are always possible.
* If the code violates the English property, the model keeps the code's behaviour; the violation is
  proved as a theorem with a concrete witness (`..._violated`) and the part that holds is proved with
  the suffix `_partial`. Section 4 lists all such disagreements.

## 3. Plan per property

The module column is relative to `lean/Verif/`. "Refinement" means: a small specification, an abstraction relation,
a step lemma, and a theorem about every history of calls. "Invariant" means: inductive over all reachable states of
a small-step system, for any number of threads.

| id | modelled (module) | proof |
|----|-------------------|-------|
| C01-C03 | memcpy, memmove, memset of `essential.cpp` with their block loops over flat memory (`MemFns`) | induction over the block loops; statement pointwise on memory |
| C04 | strlen, strnlen and the wide ones (`Str/LenCmp`) | induction on the string |
| C05 | strcmp, strncmp, memcmp, strcasecmp, strncasecmp, wcscmp, wcsncmp, wmemcmp (`Str/LenCmp`) | sign of the lexicographic order |
| C06 | strstr, memmem, wcsstr, strcasestr (`Str/Search`) | least index at which the needle is a prefix |
| C07 | strchr, strrchr, memchr, memrchr, strchrnul, strspn, strcspn, strpbrk, wcschr (`Str/Search`) | least or greatest index |
| C08 | strtok_r, wcstok, strsep with their saved position (`Str/Tok`) | induction over the sequence of calls |
| C09 | strcpy ... memccpy, strdup (`Str/Copy`) | exact resulting buffer |
| C10 | stringToInteger for any integer type (`Strtol`) | value by Horner's rule in the integers |
| C11-C14 | UTF-8 decoder and encoder, mbrtowc, wcrtomb, string conversions (`Utf8`) | case analysis over lead bytes; chunking by induction |
| C15-C16 | qsort and bsearch over memory with a stateful comparison (`Sort`) | recursion on ranges; permutation and order |
| C17-C19 | tsearch, tfind, tdelete, twalk, tdestroy on trees with stored heights (`Search/Tree`) | ordered-set refinement, AVL invariant for insertion, counterexample for deletion |
| C20 | hcreate, hsearch (`Search/Hash`) | refinement to a bounded map |
| C21 | lfind, lsearch, insque, remque (`Search/Linear`) | pointer-chain predicate |
| C22 | the environment (`Env`) | refinement to a map over all histories |
| C23 | getopt, short options (`Getopt`) | exact events for conforming argument vectors; counterexamples |
| C24-C27 | abstract_file over a parameterised kernel that may transfer short or fail (`Stdio/Model, Kernel, Spec, Refine, Props`) | refinement to (device, position, pushed-back bytes) |
| C28-C30 | fread, fwrite, fgets, getdelim (`Stdio/Calls, Getdelim`) | on top of the refinement |
| C31 | fmemopen, open_memstream (`Stdio/Mem`) | refinement to a byte array |
| C32-C33 | LimitedPrinter, ResizePrinter for any sequence of pieces (`Printf`) | simulation with the unbounded output |
| C34-C36 | mutexes (`Conc/Mutex`) | invariant |
| C37 | pthread_once (`Conc/Once`) | invariant |
| C38 | condition variables (`Conc/Cond`) | invariant with a ghost of who was released |
| C39 | barriers (`Conc/Barrier`) | invariant with counting of threads per round |
| C40 | reader/writer locks (`Conc/Rwlock`) | invariant |
| C41 | semaphores (`Conc/Sem`) | invariant, conservation equation |
| C42 | FutexLock, spin locks, flockfile (`Conc/FutexLock, Spin`) | invariant |
| C43 | thread-specific keys (`Thread/Keys`) | refinement |
| C44 | pthread_exit: cleanup handlers, thread-local and key destructors (`Thread/Exit`) | replay of arbitrary callee behaviours |
| C45 | atexit, __cxa_atexit, __cxa_finalize, quick_exit (`Process/AtExit`) | list equalities over histories |
| C46 | join, detach (`Conc/Join`) | invariant |
| C47-C48 | sigset, cpu_set (`Sets`) | refinement to sets |
| C49 | inet_pton, inet_ntop, inet_aton, inet_ntoa (`Net/Inet*`) | text predicates, round trip |
| C50 | htons, htonl, ntohs, ntohl on both byte orders (`Net/ByteOrder`) | bytes in memory |
| C51 | time-helpers (`Time/Deadline`) | integer arithmetic with overflow |
| C52 | gmtime_r, timegm, mktime (`Time/Calendar`) | day counting by induction over the calendar |
| C53 | strftime (`Time/Strftime`) | induction on the format |
| C54 | basename, dirname (`Path/Libgen`) | component decomposition |
| C55 | getsubopt (`Stdlib/Getsubopt`) | induction over the list of suboptions |
| C56 | we_check of wordexp (`Shell/Wordexp`) | judgement relation over the string |
| C57 | random, rand_r, the rand48 family (`Stdlib/Random`) | state machine refinement, modular arithmetic |
| C58 | calloc, reallocarray, posix_memalign, aligned_alloc (`Stdlib/AllocSize`) | arithmetic |
| C59 | the debug allocator (`Alloc/Debug`) | heap relation over all histories |
| C60 | parse_modestring (`Stdio/Mode`) | case analysis on an arbitrary string |
| C61 | realpath over a file system given as a parameter (`Path/Realpath`) | relational path resolution |
| C62, C66 | dependency search, relocation marks, initialisation and destruction order (`Rtld/InitOrder`) | graph induction over schedules of nested dlopen calls |
| C63 | static TLS layout (`Rtld/Tls`) | layout invariant |
| C64 | hashes, symbol tables, versions, scopes, dlsym (`Rtld/Symbols`) | chain induction, breadth-first distance |
| C65 | do_scanf for char (`Stdio/Scanf`) | specification of whole formats, induction over the directives |
| C67 | read_dns_name, lookup_name_dns (`Net/Dns`) | relational message format, induction over names and records |
| C68 | strptime, strptime_internal (`Time/Strptime`) on top of the models of scanf and strftime | induction over the printed format; day of the week by the 400-year period |
| C69 | getnum, getoffset, getrule, parse_tz, time_from_rule, is_in_dst, localtime_r (`Time/Tz`) | parser = relational grammar, both directions; then the calendar theorem |
| C70 | parse_tzfile, unix_local_from_gmt_tzfile, localtime_r on the bytes of the file (`Time/TzFile`) | bytes written by an encoder for an abstract file; search loop by induction |
| C71 | walk_file, extract_entry, copy_to_buffer, getgr*, putgrent, getgrouplist, initgroups (`Db/Group`) | file = list of entries and other lines; fgets pieces by induction over the lines |
| C72 | extract_entry, getpw*, putpwent (`Db/Passwd`) | the same |
| C73 | putspent, xatol, __parsespent, getspnam_r, sgetspent (`Db/Shadow`) | the same, with lines longer than the buffer |
| C74 | execl, execle, execlp, execvpe (`Unistd/Exec`) | the sequence of execve calls against a declarative outcome of the search, by induction over PATH |
| C75 | getcwd's fallback (`Unistd/Getcwd`) | induction over the directories, buffer as memory |
| C76 | posix_spawn and its child (`Unistd/Spawn`) | descriptor tables as finite maps; induction over the actions with the error pipe moving out of the way |
| C77 | pthread_atfork, fork (`Unistd/Fork`) | linked lists of all threads in one heap, invariant over all histories |
| C78 | do_nftw, nftw, ftw (`Unistd/Ftw`) | file system as a function of paths; refinement to a walk over name sequences by induction on the limit, then membership and order of the walk |
| C79 | longopt_find, longopt_consume, getopt_common in mode Long (`Getopt/Long`) | items with words and reports as for C23; induction over the elements of the line |
| C80 | pthread_cancel, pthread_setcancelstate/type, pthread_testcancel, the SIGCANCEL handler, pthread_exit, thread_exit, cancellable system calls on Linux (`Conc/Cancel`, `CancelInv`, `CancelProps`) | transition system with one target, its signal handler and any number of cancellers; invariants over executions with their traces |
| C81 | fdopendir, opendir, readdir, readdir_r, telldir, seekdir, rewinddir, scandir; kernel records at byte level (`Unistd/Dirent`) | refinement of a position in the list of entries by an invariant over the buffer; scandir through C15 |
| C82 | getmntent, getmntent_r, addmntent, hasmntopt (`Db/Mntent`) on top of the sscanf and strstr models | positions of the words by induction over the four fields, through C65; round trip |
| C83 | openlog, closelog, setlogmask, syslog (`Unistd/Syslog`) | refinement of the abstract configuration over histories of calls |
| C84 | services.cpp, getservbyname, getservbyport (`Net/Services`, `Net/ServPort`, `Db/Words`) | words of a line by induction; strtoul through C10; first entry by induction over the lines |
| C85 | lookup_name_hosts, lookup_addr_hosts (`Net/Hosts`) | the buffer with its stale bytes; words by induction; lines by induction; non-termination for every fuel |
| C86 | getaddrinfo, getnameinfo, gethostbyname, lookup_name_null, lookup_name_ip (`Net/AddrInfo`); the file and DNS lookups are parameters | the array and its next pointers: invariant of the two loops, then induction along the list; decision logic |
| C87 | findProto and the protoent functions (`Db/Proto`) | refinement of the list of entries still to be read, over histories; non-termination for every fuel |
| C88 | wcwidth with its tables, wcswidth (`Wchar/Width`); wcsdup, wcscasecmp, wcsncasecmp, wcslcat, wcslcpy, wcpcpy, wcpncpy (`Wchar/Posix`) | binary search = membership for every ordered table, the tables checked to be ordered; inductions on the strings |
| C89 | locale names (`Locale/Names`), setlocale, newlocale (`Locale/Set`), histories (`Locale/Hist`); the archive and the files are parameters (a name to its record, a path to its content), their hashing and parsing is not modelled | names: parts found again, list of names = sorted list of the possible choices; categories: loops by induction; composite names parsed back; restoring as an invariant over histories (what was found is found again under the name that the category then has) |
| C90 | strtofp (`Strtod/Model`) over an abstract arithmetic; numerals of C as the specification | parsing by induction on digits for every arithmetic (`Strtod/Parse`); value over the rationals, and over every arithmetic that is exact on representable results (`Strtod/Value`); a concrete binary64 with round to nearest as instance and for the violations (`Strtod/Ieee`, uses Mathlib's ordered fields) |
| C91 | utmp.hpp, utmpx.cpp, utmp.cpp (`Unistd/Utmp`); the layout of a record and the sizes and errors of reads and writes are parameters | refinement of every history of calls to a list of records with an index; each record by induction on the bytes still to be read; violations by evaluation |
| C92 | posix_stdio.cpp popen, pclose; stdlib.cpp system; unistd.cpp dup2; the Linux Dup2 (`Unistd/Shell`); numbers and failures of the system calls are parameters | the child and the caller of one call computed outright; an invariant over all histories of streams; violations by evaluation |
| C93 | ansi/x86_64/strcmp.cpp, all of it, and the default strcmp (`Str/Vector`); memory by address, mapped in pages | the masks bit by bit give the first position where the chunks differ or end; the loops by induction on fuel with the common prefix as invariant; a chunk stays in a page that holds a byte of the string |
| C94 | glibc string.cpp strverscmp (`Str/Version`) | a form by states of the common prefix, in which each state orders the rests by a number; transitivity by induction on the strings |
| C95 | linker.cpp _fetchFromFile (`Rtld/Load`); memory is a protection and a byte per address; the file is its bytes | each system call changes a range of addresses; what a segment does is put together from these, page by page; then induction over the headers (segments have no page in common), and over the history of loads |
| C96 | linker.cpp requestObjectWithName, requestObjectAtPath, findLoadedObject, findObjectByFileId, _discoverDependencies; main.cpp parseList, the set-up of the paths, __dlapi_open (`Rtld/Find`); files are a function of the path | the loops over entries and directories are one walk over the list of files; induction over the entries; invariant of the queue of dependencies |
| C97 | options/internal/*/setjmp.S for six architectures and stdlib.cpp __sigsetjmp, siglongjmp (`Arch/Setjmp`); the instructions that occur are those of a small machine with named registers and byte memory; not sigsetjmp on m68k | the calling conventions are a separate specification; the programs are run symbolically, the buffer holds what was stored in it by induction over the stores |
| C98 | options/internal/*/fenv.S for six architectures, fenv.cpp, macros of bits/ansi/fenv.h (`Arch/Fenv`); functions on the control and status registers, no unmasked exceptions | where manuals put flags and modes is a separate specification; bitwise extensionality; the functions of fenv.cpp once for all processors that meet it; induction over calls for the agreement of the units |
| C99 | all of fnmatch.c (`Shell/Fnmatch`); mbtowc, iswctype and towupper are parameters | patterns are rendered from a list of items with well-formedness conditions; a declarative relation says what the items match; tokens by induction over bracket elements; the greedy search for the components is proved complete by induction |
| C100 | floor.c, ceil.c, trunc.c, round.c, rint.c, nearbyint.c, modf.c, lrint.c, llrint.c, lround.c, llround.c and the float variants (`Math/Bits`, `Math/Arith`, `Math/Round`); not the exceptions raised and not long double | numbers are their bits, magnitudes are counted in units of the smallest positive number, so that no rationals are needed; IEEE addition is defined by rounding the exact sum in each mode; the sums with 2^52 are shown to be the integers next to the argument, the other sums to be exact |
| C101 | fmod.c, remquo.c, remainder.c and the float variants (`Math/Rem`); not the exceptions raised and not long double | the loop invariant is congruence modulo the scaled divisor, for arbitrary widths of significand and exponent; the result is related to the exact integers of units of x and y |
| C102 | scalbn.c, ldexp.c, scalbln.c, frexp.c, ilogb.c, logb.c, nextafter.c, fmax.c, fmin.c, fdim.c, fabs.c, copysign.c, __fpclassify.c, significand.c and the float variants (`Math/Mul`, `Math/Scale`, `Math/Parts`); the multiplication of the machine is modelled as the IEEE 754 product in four rounding modes; not the exceptions raised and not long double | `Rounded` says what the rounding of a rational is, has exactly one solution, and the model's product and scalbn meet it for arbitrary widths; nextafter through the order isomorphism between bit patterns and values |
| C103 | sqrt.c, sqrtf.c (`Math/Sqrt`); not the exceptions raised and not long double | an invariant relates the rest and the bits found so far to the exact square, the loops on two words refine it, and the last bit and the rest determine the rounding |
| C104 | musl-generic-regex/glob.c (`Shell/Glob`); fnmatch, qsort and the file system are parameters; not GLOB_NOSPACE, errno and expand_tilde's search for the home directory | the loop over the literal prefix is related to the components of the pattern, then induction over the recursive calls, for soundness, completeness and distinctness at once |
| C105 | stdlib.cpp L434-547 and uchar.cpp (`Utf8/Plain`), on the decoder and encoder of C11-C14 | the four outcomes of decoding one character in the initial state, then induction over histories |
| C106 | linker.cpp L1271-1341, L1482-1515, L2112-2488, linker.hpp L266-338, main.cpp L209-229, x86_64/runtime.S (`Rtld/Reloc`) on byte-addressed memory | a generic lemma on runs of local updates with disjoint footprints; each record kind is such an update; bits of a DT_RELR entry by strong induction |
| C107 | collation.hpp L263-584, string.cpp L94-97, L117-134, L333-360 (`Locale/Collate`, `Locale/Xfrm`) | the walk (forward, or a reversed block from a buffer) yields the weights of the specification one by one; passes compare them lexicographically; the transformed string is a concatenation of self-delimiting codes |
| C108 | charset.cpp, ctype.cpp, wctype.cpp, wide.cpp L5-23, posix_ctype.cpp, c-locale-defaults.cpp L5-374 (`Locale/CtypeTables`, `Locale/Ctype`) | the tables of the C locale are checked character by character below 128 and shown to end there; for other locales a compiler of three-level tables is inverted by the lookup |
| C109 | regcomp.c L1686-2846 (expansion, followpos construction), regexec.c L53-461 (parallel matcher) (`Regex/Spec`, `Regex/Model`, `Regex/Match`, `Regex/Glushkov`, `Regex/Expand`, `Regex/Main`) | the matcher reaches exactly the states with a path (loop invariant); a path to the final state of the position automaton is a match and conversely (induction on the tree, positions distinct); the expansion keeps matches and keeps positions distinct (induction with the two position counters) |
| C110 | regcomp.c L531-1082 (`tre_parse`, `parse_atom`, `parse_bracket`, `parse_dup`) for REG_EXTENDED (`Regex/Syntax`, `Regex/Parse`, `Regex/Bracket`, `Regex/Text`) | the grammar is an inductive relation between expressions and texts; induction on derivations: from the head of the loop the parser reaches the end of the piece, branch or expression with the tree of an equivalent expression; the complement of a bracket by induction on the sorted items; a measure decreases with every step |
| C111 | m68k/atomics.cpp (`Conc/Atomic8`): lock, two half accesses each way, unlock, per thread; the lock number is any function of the address | invariant over all reachable states: the halves of an object nobody works on are those of the sequential value, a thread in a critical section has read, or still has to write, halves of it; two threads never work on one object, because it has one lock |
| C112 | locale.cpp L352-572, locale-archive-parsing.hpp (`Locale/Archive`): the file is a list of bytes, every word read is checked against its end | tables are an inductive relation (insertion at the first free place tried); invariant: an entry is reached from its first place over entries of other names; a prime size makes the places tried cover the table, so a search for an absent name meets a free place; fields: round trip of a separate encoder |
| C113 | sys-time.cpp (`Time/Timeval`), 64-bit overflow is undefined | times as microseconds; linear arithmetic |
| C114 | sys-uio.cpp L25-66 (`Unistd/Writev`): the copy loop works on a buffer with bounds | induction on the buffers: the first part of the buffer holds what was copied, the rest has the size of what is to come |
| C115 | linker.cpp L972-1127 (`Rtld/Versions`): images as bytes, both loops over linked records; continues `Rtld/Symbols` | induction on the records; the tables are specified by the bytes at every record, for any layout |
| C116 | monetary.cpp (`Locale/Strfmon`): sink with bounds, parser, computation of lengths, order of the pieces; `print_float` and `grouping_extra_characters` are parameters | the sink invariant by induction on the format; conversion specifications as data and their text, parser by induction on flags and digits, pieces by cases on style and flags |
| C117 | regcomp.c L725-1082 without REG_EXTENDED (`Regex/BasicSyntax`, `Regex/BasicParse`, `Regex/Basic`); back references are not followed | the grammar is an inductive relation with the place of a piece as an index; induction on derivations, with the distance from `ctx->start` as invariant; a measure decreases with every step |
| C118 | stdlib.cpp L12-40, posix_stdlib.cpp L181-231, stdio.cpp L782-825 with the bytes of the template object (`Stdlib/Temp`); the kernel is a set of names with permissions and an oracle for errors, other programs change it before each call; names are compared as text | induction over the attempts with the files before each as history; the callers are a transition system with the invariant that the names given exist and differ |
| C119 | sys-select.cpp L13-33 with words of `2 ^ b` bits (`Sets/FdSet`) | refinement to a set of numbers by induction on the history |
| C120 | posix_signal.cpp `sig2str`, `str2sig`, with `strtol` (`Unistd/SigName`) | decision logic against the list of names; round trip over all signals |
| C121 | pthread.cpp L82-346, L783-968, threads.cpp `thread_create`, `thread_mutex_init`, `thread_cond_init`, linux `PrepareStack` (`Thread/Attr`) | one-step lemma per attribute, lifted to histories by induction |
| C122 | stdio.cpp L240-361, L2156-2212 on a stream of bytes (`Stdio/Wide`) | decoding lemmas of C12 byte by byte; induction over the line and over blocks of 512 bytes |
| C123 | unistd.cpp L573-602 on record locks per process and byte (`Unistd/Lockf`) | simulation by the map from bytes to owners, lifted to every history |
| C124 | termios.cpp L11-43 on bit vectors (`Unistd/Termios`) | bit by bit; induction over the history |
| C125 | unistd.cpp L1237-1264, pty.cpp, sysdeps/linux sysdeps.cpp L716-730 on tables of descriptors (`Unistd/Dup`) | decision logic for every table; composition for `forkpty` |
| C126 | sys-mman.cpp L84-122 on memory behind the name (`Unistd/Shm`) | induction over the name |
| C127 | error.cpp, err.cpp, perror in stdio.cpp L2315-2321 (`Unistd/Diag`) | induction over the history with the static variables |
| C128 | resolv.cpp L37-52 on bytes (`Net/SkipName`) | induction over the rounds of the loop; uniqueness of the decoding |
| C129 | file-window.hpp L13-52, the variant that reads (`Locale/FileWindow`) | loop invariant over every sequence of sizes |
| C130 | arpa-nameser.cpp L7-25 on bytes (`Net/Bytes`) | arithmetic of shifts |
| C131 | unistd.cpp L774-781 on bytes (`Net/Bytes`) | induction over the rounds of the loop |
| C132 | linux/generic/utmp.cpp L130-150 with its blocks of memory (`Unistd/UtmpName`) | invariant over histories |
| C133 | posix_time.cpp L18-82, utime.cpp L9-29 on a kernel with times of files (`Time/Utimes`) | case analysis, arithmetic |
| C134 | execinfo.cpp L21-81 on an array and a stack (`Unistd/Backtrace`) | induction over the frames |
| C135 | poll.cpp L18-36, the variant on top of `poll` (`Unistd/Ppoll`) | arithmetic |
| C136 | resolv_conf.cpp L8-40 on the bytes of the file (`Net/ResolvConf`) | induction over the lines |
| C137 | sysmacros.h L10-25 on bit vectors (`Unistd/DevNum`) | bit by bit |
| C138 | mqueue.cpp L24-66, sysdeps/linux/generic/sysdeps.cpp L2823-2852 on a kernel with queues (`Unistd/Mqueue`) | induction over the queue, case analysis |
| C139 | sys-statx.cpp L9-61, the variant on top of `stat` (`Unistd/Statx`) | case analysis, C137 |
| C140 | sys-socket.cpp L89-128, the variant on top of `recvmsg` (`Unistd/Statx`) | arithmetic |
| C141 | sysdeps/linux/generic/posix/aio.cpp L146-175, L366-391, L476-498 on the two rings, with the kernel's side as io_uring documents it (`Unistd/AioRing`) | induction over requests, completions and rounds; arithmetic modulo 2^32 |
| C142 | sysdeps/linux/generic/posix/aio.cpp L450-467, L709-787, with caller and worker in any interleaving (`Unistd/Listio`) | induction over the list; an invariant over all schedules |
| C143 | sysdeps/linux/generic/posix/aio.cpp L32-94, L394-452, L817-888, L946-979, options/posix/generic/aio.cpp L57-82 (`Unistd/AioLife`) | refinement of a three-state specification over all histories; induction over the answers of the kernel |

Not expressible in the model: performance claims other than tree height, weak-memory reorderings, signal
asynchrony inside libc functions, actual kernel behaviour, floating-point parsing accuracy.

### What is not modelled in the modules above

* Concurrency: memory is sequentially consistent; cancellation is left out; recursion levels and reader counts are
  unbounded numbers; more than 2^31 threads are excluded; `pthread_barrier_destroy` and its `inside` counter are not
  modelled; timed waits may time out at any moment.
* stdio: wide-character functions, `fopen`/`freopen`/`fclose`, `setvbuf` after use; `rand()` (its engine is in frigg).
* printf: the formatting of the conversions (`frg::printf_format` is not in the repository); any sequence of pieces is
  covered instead.
* scanf: floating point, `%m`, `%ls`, the wide functions.
* inet, strftime: `snprintf` enters by its contract; IPv6 addresses are eight groups; `int` overflow of wild `struct tm`
  fields is left out; time zone rules are a parameter of mktime/localtime.
* wordexp: only the check before the shell is called.
* rtld: file names to objects is a parameter; the contents of relocations and threads are left out; the `rts` counter and
  TLS sizes are below 2^64.
* exit: `quick_exit` handlers that register further handlers.

## 4. Disagreements between code and property

Each of these is proved as a theorem with a concrete witness (`..._violated`, `..._ub`), unless marked (read only).

Strings and conversion
* wcscmp subtracts, which overflows for values far apart (C05).
* wcsstr, memmem, strcasestr do not find an empty needle in an empty haystack (C06).
* strncpy, strncat, stpncpy read `src[n]` (C09).
* strtol of a bare `0b` does not read 0 (C10).
* mbrtowc with n = 0 returns 0 instead of -2 (C13); wcrtomb encodes surrogates (C11); wcsrtombs aborts when a character
  does not fit; mbsrtowcs, mbsnrtowcs with limit 0 abort (C14).

Searching, environment, getopt
* tdelete leaves trees unbalanced (C18); hsearch on a table of capacity 0 divides by zero (C20).
* clearenv does nothing; unsetenv with duplicates keeps one; empty names and names with `=` are accepted (C22).
* getopt: clusters, missing arguments (endless), `-x` as an argument, `-:` (C23).

stdio
* A buffered read past pushed-back bytes at end of file loses them; ungetc returns a negative value from 128 on (C27);
  SEEK_CUR ignores pushed-back bytes (C26).
* fread returns 0 after an error that follows complete items (C28); fgets returns a partial line on an error (C29);
  getdelim with the error indicator set loses a byte (C30).
* fmemopen's terminator overwrites data; open_memstream seeks to negative positions and then writes outside;
  SEEK_END truncates (C31). snprintf does not count `%lc` of 0 (C32).
* Mode `rz+` opens for writing; the empty mode is read past its end (C60).
* scanf: width ignored by %d %u %i %o; `%*5x` is not parsed; a literal that does not match consumes the character;
  `%%` does not skip white space; `%b` and `%p` of "0" fail; `%s` and `%c` of a byte from 128 on abort; `%[a-z]` accepts
  `-` (C65). (read only) `%f` of "0" fails; `%[` with an incomplete UTF-8 sequence at the end over-reads; wide scanf
  truncates look-ahead to char; `%'d` converts nothing; a format that ends in `%` is over-read.

Threads
* An error-checking mutex unlocked by another thread returns EPERM and is released; unlocking a free one aborts (C36);
  ftrylockfile by the owner aborts (C42).
* A condition variable's counter wraps after 2^32 signals during one wait and crashes the waiter (C38); a barrier's
  generation wraps, and with more than `count` threads the sequence goes backwards (C39).
* Try-locks of a reader/writer lock fail spuriously while another thread is only acquiring (C40).
* sem_trywait fails for ever after any wait has blocked (C41). Joining or detaching twice succeeds (C46).
* Thread exit: thread-local destructors registered by cleanup handlers never run; a key's value is visible during its
  destructor; a value set again by its own destructor is lost (C44).
* Process exit: handlers registered during exit never run; the list may move under the running loop; nested
  __cxa_finalize reruns handlers (C45).

Sets, time, network
* sigaddset(INT_MIN) overflows (C47); CPU_SET of a negative number is out of bounds; set sizes from 2^28 on (C48).
* A deadline far in the past is an error; invalid nanoseconds are accepted (C51).
* tm_yday is wrong from March on in common years; negative instants give negative fields; days wrap at 2^31; mktime
  never normalises and is wrong for months from 14 on (C52).
* strftime: %c, %x, %X inside a longer format lose the rest; %O and %E before others are stored unchecked; unknown
  conversions end the program (C53).
* strptime: %j never accepts three digits; adjacent numbers are not told apart; a computed tm_wday may be negative; tm_yday is
  wrong in leap years; %u is shifted, %w takes 7 to 9; the empty text never matches; thirteen conversions abort (C68).
* inet: fewer than three dots are over-read; trailing ".x" and huge negative numbers are accepted; inet_ntop stores behind
  the buffer for texts ending in "::"; inet_pton rejects some mapped addresses and "::" for one group, accepts stray
  colons and signs (C49).
* DNS: a compression loop exhausts the stack; records are read beyond the datagram; address records of any length are
  copied; answers for other names are accepted; a datagram with another identifier ends the wait; a name that ends in
  a pointer to the root gets a trailing dot; "name." is sent with two terminators and long labels unchecked (C67).
* TZ texts: a summer time name of seven letters at the end of the text overruns its buffer, shorter ones than three and
  unclosed brackets are accepted there; Mm.w.d always means day 1+d+7(w-1) of the month, Jn and n always 31 December of
  the year before; the time of day of a rule is ignored (C69).
* Zone files: after the last transition the first type is used, before the first one the type of the first transition; the
  types are read one place too far, so with a file of one type (UTC) the names are taken for an offset (C70).
* Services: a protocol other than tcp and udp is either not found or taken for granted; a name found as an alias is given as
  the official name; getservbyname("80", NULL) reads a string that was never constructed; 4294967376 is port 80 and the numeric
  service 65616 too; "udplite" is udp; "x25 25/tcp" is not found by its port; text behind a comment sign is parsed; long lines
  are split (C84).
* Hosts: "1.2.3.4 h # c" makes a lookup of h loop for ever; trailing white space depends on stale bytes; a last line without
  newline is not seen; an address is matched as a prefix (C85).
* getaddrinfo: INADDR_LOOPBACK is stored in host byte order, so that the loopback address is 1.0.0.127; AI_ADDRCONFIG replaces
  the family asked for; a service that is not found gives success with a pointer to a zero-size allocation; AI_V4MAPPED has no
  effect. getnameinfo: NI_NUMERICSERV has the value of NI_NUMERICHOST; a service that does not fit is EAI_MEMORY.
  gethostbyname takes the family of the first address, and drops the IPv4 addresses when that is IPv6 (C86).
* Protocols: setprotoent and endprotoent keep the position; "ospf 89" without alias is skipped; a line of more than 255 bytes
  or an unfinished last line is read again and again at the same offset, for ever (C87).

Others
* getsubopt reports only the value of an unknown suboption (C55).
* wordexp: a quoted backquote lets the check skip to the next one; command substitutions hidden in `${...}` or `$((...))`
  pass WRDE_NOCMD; a trailing `$` is over-read (C56).
* Debug allocator: sizes near 2^64 wrap; aligned requests panic unless the size is a multiple (C59).
* realpath: cycles never end; a link inside a link joins or overruns; absolute targets are returned unresolved; a link to
  "/" gives "//x"; an empty path gives the working directory; targets are cut at 512 characters (C61).
* rtld: an object opened by an initialiser may be initialised before its dependency; indirect dependencies through a cycle
  may come later; objects loaded by destructors are never destroyed (C62); an opened object in a cycle is relocated
  twice (C66); late static TLS with a larger alignment is misaligned; alignment 0 overlaps the TCB (C63); names with
  bytes from 128 on are hashed differently from the ABI; a promoted object is invisible to its own local scope (C64).
* getgrnam_r/getgrgid_r do not count the room for the password, and a misaligned buffer stays misaligned (writes behind the
  end); a name that does not exist is ESRCH instead of 0 with a null pointer; a line with three fields, or whose fourth is
  empty at the end of the file, is read through a null pointer, five fields end the program; commas in members are written
  as they are (C71).
* group and passwd: lines of more than 511 characters are taken for several lines, so the tail of a long line can define an
  entry (root, say); numbers from 2^31 on overflow `int` (C71, C72). passwd lines with more than seven fields are accepted
  (C72).
* putspent does not refuse colons or negative numbers; a last line without newline gives ERANGE; numbers from 2^63 on
  overflow (C73).
* execvpe: an empty entry of PATH means the root directory instead of the current one, an empty last entry is ignored, an
  empty PATH is searched nowhere; ENOEXEC is not handed to the shell; execl ends the program with more than 14 arguments
  (C74).
* getcwd writes one byte before the buffer if the end of the path from some slash on is exactly as long as the buffer, for
  instance if the buffer is one byte too small (C75).
* posix_spawn: O_CLOEXEC in an open action takes effect or not depending on which descriptors are free; if fork fails both
  ends of the error pipe stay open (C76).
* pthread_atfork: handlers belong to the thread that registered them, others do not call them; if fork fails the handlers
  for the parent are not called although those for prepare were (C77).
* nftw: directories more than fd_limit levels deep are not entered, one descriptor more than allowed is used at the last
  level; the descriptor of a directory stays open if the directory is below itself or if the function ends the walk before
  its contents; FTW_CHDIR is ignored (C78).
* getopt_long: `--name=value` for an option without argument returns `:` (with a leading colon) and leaves optopt;
  an abbreviation of two options of the same meaning is ambiguous; `-W name` does not take the next word (C79).
* Cancellation: the handler treats `pc == __mlibc_syscall_end` as before the system call, so that a completed call
  (data read) is lost; cancellation stays enabled during cleanup handlers, so that a cancellation point in one ends the
  thread without running the others and without setting didExit (pthread_join hangs); a thread created while SIGCANCEL is
  blocked in its creator keeps it blocked (C80).
* Directories: a failing read ends the process in readdir; scandir returns -1 if the select function leaves errno set, and
  never closes the directory it opened (C81).
* Mount table: hasmntopt uses strstr ("auto" is found in "noauto"); addmntent does not escape white space and getmntent does
  not decode \\040; a last line without newline is lost; mnt_freq and mnt_passno of a comment line leak into the next entry;
  a byte above 127 ends the process in sscanf (C82).
* syslog: `priority & log_mask` drops messages that the mask includes (LOG_ERR under LOG_MASK(LOG_ERR), LOG_EMERG without
  facility); setlogmask(0) silences everything; `log_opt` is never set, so that LOG_PID, LOG_PERROR and LOG_CONS have no
  effect; one failing connect redirects all later messages for good (C83).
- setlocale(LC_ALL, name) that fails has changed the categories before the one that is missing, and setlocale(LC_ALL, NULL) still gives the old name (`failed_all_violated`).
- setlocale(category, "") for one category sets all categories from the environment (`single_env_violated`) and ignores LC_ALL (`lc_all_env_violated`).
- setlocale with a category that does not exist reaches `__builtin_unreachable` or reads behind a table (`bad_category_violated`).
- newlocale(mask, "", 0) does not use the environment (`newlocale_env_violated`); a failing newlocale changes its base (`newlocale_base_violated`).
- A name with ";" in the modifier can be set for a category when it is found in the archive, and makes a list of names that cannot be parsed back (`semicolon_violated`); a list whose last item has no "=" makes a view outside of the text (`composite_end_violated`).
- strtod("0.12") is one unit in the last place off: each decimal is divided and added separately (`correct_rounding_violated`); a long integer part with a negative exponent overflows to infinity although the number is 1 (`intermediate_overflow_violated`).
- strtod without a numeral sets the end pointer behind the white space and the sign (`no_conversion_violated`); "." and the "x" of "0x" without digits are consumed (`lone_point_violated`, `hex_prefix_violated`).
- "inf" and "infinity" are only recognised when the string ends there; mixed case is not recognised; "nan(...)" is not consumed (`inf_word_violated`).
- An exponent above INT_MAX is a signed overflow, even for "0e99999999999" (`exponent_overflow_violated`); an exponent just below it costs 2^31 multiplications. ERANGE is never reported.
- pututxline appends even when there is an entry with the same id, so the old entry stays and is the one found (`replace_violated`).
- getutxline tests the type of the query instead of the type of the entries: a query without type finds nothing, and entries of dead processes are returned (`line_type_violated`); getutxid returns entries that are not of a process (`id_type_violated`).
- A write that fails inside a record leaves a partial record and shifts all later ones (`torn_write_violated`); an interrupted read loses the record boundary (`torn_read_violated`).
- utmpname has no effect while the database is open, even after setutent (`utmpname_violated`).
- popen by a caller whose standard output (for "r") or input (for "w") is closed: the pipe takes that number, and the child closes it after the dup2 that did nothing (`popen_closed_violated`); on Linux the dup2 fails and the child panics (`popen_closed_panics`).
- popen does not close the streams of earlier calls in the child: a second command keeps the first pipe open (`popen_earlier_violated`).
- pclose interrupted by a signal returns ECHILD with the command still running (`pclose_interrupted_violated`); system compares the positive error of waitpid with `< 0`, so it never waits again and returns -1 without errno (`system_interrupted_violated`).
- On Linux `dup2(fd, fd)` fails with EINVAL, because the port uses dup3 (`dup2_self_violated`).
- strverscmp("a1", "ab") is positive: a letter comes before a nonzero digit (but after 0), where the manual and glibc take the order of the bytes (`strverscmp_mixed_violated`). strverscmp("01a", "011") is positive although .01 < .011 (`strverscmp_fraction_violated`; glibc does the same).
- An ELF segment of zeros only that begins on a page boundary stops the program: the linker asks for a file mapping of 0 bytes (`bss_violated`). So does a program header of type PT_NULL (`null_violated`). Program headers of less than 56 bytes are read from behind the buffer, and a segment that is larger in the file than in memory stops the program instead of making dlopen fail (`malformed_violated`).
- The dynamic linker searches DT_RUNPATH before LD_LIBRARY_PATH (`order_violated`); an empty entry in DT_RUNPATH or DT_RPATH, or $ORIGIN for an object in /, makes it read in front of a string (`empty_violated`); a DT_NEEDED entry with a slash is not used as a path (`slash_violated`).
- The same file is loaded twice when it is needed by its SONAME first and by another name (a symbolic link) later (`twice_violated`). With two libraries in LD_PRELOAD the first gets the rest of the variable as part of its name and path, and is loaded again when it is needed (`preload_violated`).
- dlopen("/b/libx.so") returns a library loaded from /a/libx.so if its SONAME is libx.so (`path_violated`). RTLD_NOLOAD misses libraries that were loaded by another path (`noload_violated`).
- On x86-64 longjmp(env, 0) makes setjmp return 0 if the caller leaves something in the high half of %rsi, as the calling convention allows (`Setjmp.x64_violated`); on m68k %fp2 to %fp7 are not saved (`m68k_violated`).
- On x86 without SSE feclearexcept clears all flags if one that is not named is raised; the test is the wrong way round (`Fenv.x87_clear_violated`). fegetenv on x86 masks the exceptions of the x87 (`fegetenv_masks_violated`). fegetenv on m68k writes 12 bytes into a fenv_t of 4 (`m68k_overflow_violated`).
- fnmatch: `[[.a.]]` and `[[=a=]]` match nothing (`Fnmatch.collating_violated`); `[+--x]` matches 'A' (`range_minus_violated`); with FNM_PERIOD an escaped period does not match a leading one (`escaped_period_violated`); with FNM_PATHNAME a bracket expression with a slash does not become a list of characters (`bracket_slash_violated`); `[!а-я]` does not match 'z' (`range_utf8_violated`); "a" matches "a" with an invalid byte behind it (`invalid_rest_violated`); an invalid byte in the pattern makes FNM_PATHNAME loop forever (`hang_violated`).
- **C102** `significand(±0)` and `significand(NaN)` evaluate `-ilogb(x)` with `ilogb(x) = INT_MIN`: signed overflow (`significand_violated`).
- **C103** `sqrt` of subnormal numbers whose leading bit is bit 31 or bit 10 of the pattern evaluates `ix1>>32`, a shift by the width of the type (`sqrt_violated`); with what x86 and ARM make of it the root is right (`sqrt_partial`).
- **C104** `glob` with GLOB_ERR (or an error function that returns nonzero) returns GLOB_NOMATCH instead of GLOB_ABORTED when the search is stopped before a file was found (`glob_aborted_violated`).
- **C105** After a truncated character `mblen` keeps the partial state: it returns -1 for every further string until it is reset (`mblen_sticky_violated`). `mblen(s, 0)` returns 0 as for the null character (`mblen_zero_violated`).
- **C105** `mbtowc` returns the number of bytes, not -1, for every truncated character, and stores nothing (`mbtowc_incomplete_violated`); `mbtowc(NULL, NULL, 0)` resets the state of `mblen` instead of its own (`mbtowc_reset_violated`).
- **C105** `mbstowcs(dst, s, 0)` aborts (`mbstowcs_zero_limit_violated`); `wcstombs` aborts when a character does not fit (`wcstombs_cut_violated`); `mbrtoc32` with a limit of 0 stores an uninitialised variable (`mbrtoc32_zero_violated`).
- **C106** DT_SYMBOLIC has no effect on PLT slots, neither eager nor lazy (`symbolic_plt_violated`), nor on TLS descriptors (`symbolic_tlsdesc_violated`): both are bound to the first definition in scope although GLOB_DAT records of the same object use its own one.
- **C106** R_X86_64_IRELATIVE records in the DT_RELA table of a library are skipped by the static pass and the late pass looks at the main program only, so they are never applied (`irelative_library_violated`).
- **C107** If elements of a section that is sorted backward in a pass meet elements that are sorted forward in that pass, an element is lost (the buffer is one too short, or is filled from a stale position), and different strings compare equal (`strcoll_mixed_violated`). Whether ignored elements count is taken from the section of the first element of the first string only, so strcoll can say of two strings that each is greater (`strcoll_position_violated`).
- **C107** strxfrm does not keep the order if a pass other than the last counts ignored elements (`strxfrm_position_violated`), nor with one pass, where a string of ignored elements is transformed like the empty string (`strxfrm_one_violated`).
- **C108** isascii looks at eight bits of its argument only: isascii(0x141) is true (`isascii_violated`). tolower_l and toupper_l do not return EOF and bytes that are no characters unchanged: they give 0, or 255 for EOF with the C locale active (`tolower_l_violated`). The class functions with a locale argument decode with the codeset of the active locale, so that isalpha_l(EOF, l) is true with the C locale active if the character 0xFF is a letter in l (`isalpha_l_eof_violated`). iswctype indexes the fixed members of the category and reads past them for the fifteenth class of a locale (`iswctype_many_violated`).
- **C109** Of several empty paths through a subexpression the compiler follows one, with its assertions: `(^|)a` and `(^)?a` do not match in "ba" (`empty_path_violated`, `empty_path_rep_violated`). The shift of positions caused by a counted repetition is forgotten when an enclosing repetition, itself inside another one, ends, and two characters get the same state: `^((x{2})*y)+$` matches "xy" (`nested_counts_violated`). An atom dropped by `{0}` leaves a hole in the numbering, so that the copies of an enclosing counted repetition overlap: `(ba{0}c){2}` matches "bbc" (`dropped_atom_violated`).
- **C110** `(^|b*)a`, read correctly, does not match in "xa", for the reason given under C109 (`text_violated`).
- **C112** An archive shorter than a locale record makes `size() - sizeof(LocaleRecord)` wrap around, and the record is read outside the file (`archive_safe_violated`). If the name table has no free place, the search for an absent name never ends (`archive_ends_violated`). `parse_stringlist<Min, Max>` wants Min + 1 strings: the maps "toupper" and "tolower" alone are read as an empty list (`strList_violated`). The check that a text ends with NUL compares with an empty string and never fails (`unterminated_violated`).
- **C113** At the ends of the range of `time_t` the seconds are added before the carry, which overflows although the result can be represented (`timeradd_violated`, `timersub_violated`). `settimeofday` does not refuse negative microseconds (`settimeofday_violated`).
- **C114** `writev` with no buffers fails `__ensure(iovc)` (`writev_violated`); with a negative number it writes nothing and succeeds (`writev_negative_violated`).
- **C115** A required version that the dependency does not define ends the program with a panic, also in `dlopen` (`verneed_missing`, `missing_violated`). A weak requirement (VER_FLG_WEAK in `vna_flags`) fails `__ensure(!aux.vna_flags)` even if the version is there (`weak_violated`).
- **C116** `strfmon` needs two characters more than the result and its terminator (`room_violated`); it tests the sign bit after negating, so the locale's style for negative amounts is never used (`negative_violated`); with `!` a sign next to the symbol is lost (`sign_lost_violated`); the field width is filled with the numeric fill character (`fill_violated`); the positive sign appears with `+` only (`positive_violated`); digits are counted modulo 2^32 (`width_violated`), amounts from 2^64 on are undefined (`huge_violated`); output that does not fit while the number is printed can be left out silently (`silent_violated`); a format that ends within a conversion fails an assertion (`truncated_violated`).
- **C117** the basic regular expression `^\(\(x\{2\}\)*y\)\{1,\}$` matches "xy", for the reason given under C109 (`btext_violated`).
- **C118** `mkdtemp` ends the process for a template of fewer than six characters (`mkdtemp_short_violated`), `tmpfile` fails without setting errno if no file can be created (`tmpfile_errno_violated`), `tmpnam` returns the name of an existing file which the caller may not read (`tmpnam_violated`).
- **C120** `str2sig("RTMIN+9223372036854775807", …)` adds to LONG_MAX, signed overflow (`str2sig_overflow_violated`); `RTMIN+`, `RTMIN+ +3` and numbers after spaces are taken as signals (`str2sig_lax_violated`).
- **C121** `pthread_attr_getaffinity_np` into a buffer longer than the set zeroes the start of the buffer instead of its end (`affinity_violated`); a guard size of 100 makes every `pthread_create` fail with EAGAIN (`guard_violated`); `pthread_getattr_np` reports the guard as the start of the stack, and the top of the stack is not in the range (`reported_violated`); signal mask, processors and scheduling of the attributes are ignored by `pthread_create` (`create_ignores_violated`).
- **C122** `fgetws` returns a pointer to the end of the line (`fgetws_pointer_violated`), does not return a null pointer at the end of the file (`fgetws_end_violated`) and returns one for a good line after an earlier error (`fgetws_stale_violated`); `fputws` ends the process if a character lies across byte 512 (`fputws_violated`) and reports success on a full device (`fputws_full_violated`); `fputwc` of an ASCII character to a full device does not set the error indicator (`fputwc_ascii_violated`) and a surrogate is written as three bytes that cannot be read back (`fputwc_surrogate_violated`); a failing `ungetwc` leaves a part of the character in the stream (`ungetwc_violated`).
- **C124** `cfsetispeed` with a speed other than 0 changes the output speed (`input_speed_violated`).
- **C125** on Linux `dup2(fd, fd)` fails with EINVAL, because it is made of `dup3` (`dup2_same_violated`), and so does `login_tty` of a standard descriptor (`login_tty_violated`); `forkpty` leaks both descriptors if `fork` fails (`forkpty_leak_violated`) and leaves the master open in the child (`forkpty_child_violated`); `openpty` does not set errno if `ptsname_r` fails (`openpty_errno_violated`).
- **C127** `error` with error number 0 prints the text of error 0 (`error_zero_violated`); `error_at_line` with error number 0 does not end the line (`error_at_line_newline_violated`) and with `error_one_per_line` suppresses a message for the same line number of another file (`error_at_line_file_violated`); `warn` reads errno after it has begun to print (`warn_errno_violated`).
- **C128** `dn_skipname` skips labels of 64 to 191 bytes, which the standard reserves (`dn_skipname_long_violated`).
- **C133** `utimes` with microseconds of 2^60 overflows instead of EINVAL (`utimes_overflow_violated`).
- **C135** `ppoll` on top of `poll` does not wait for less than a millisecond and waits for ever instead of 25 days (`ppoll_time_violated`).
- **C136** A line `nameserver` without an address hides the servers behind it (`nameserver_blank_violated`), and a line of more than 126 bytes is not seen (`nameserver_long_violated`).
- **C138** `mq_receive` returns 0 instead of the length of the message (`mq_receive_violated`).
- **C139** `statx` on top of `stat` claims to know the time of birth and gives that of the last change (`statx_birth_violated`).
- **C140** `recvfrom` on top of `recvmsg` returns a negative number without an error for 2^31 bytes, and 0 for 2^32 (`recvfrom_violated`).
- **C142** A list of invalid requests only: none of them gets an error (`listio_marks_violated`); LIO_WAIT sends the notification that POSIX has it ignore (`listio_wait_violated`); an asynchronous request of 2^32 bytes becomes one of 0 bytes (`aio_len_violated`).
- **C143** A cancelled request is reported as finished when the completion of the cancellation comes; its own completion, which comes later, still writes to the structure, and cancels a new request in it (`aio_reuse_violated`).
