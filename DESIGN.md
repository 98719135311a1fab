# Formal model of c-events: design

Target: zelang-dev/c-events, C sources in /repo.  Unless said otherwise the Linux/x86-64 build is modelled (epoll, LP64);
`_WIN32` branches are not.  Prover: Lean 4 with Mathlib.  All modules live in `lean/Verif/` and are imported from
`lean/Verif.lean`.  The properties are in `properties.jsonl`, the theorems for each in `MANIFEST.json`; wrong programs tried
against the theorems are in `seeded/LOG.jsonl`.

## Layout

An area has a model (transcription of the C functions, each definition citing file and lines), a small specification
independent of it, helper lemmas, and a file of property theorems with `example`s that meet the hypotheses.  In small areas
some of these share a file.

| modules | code | properties |
|---|---|---|
| `Basic`, `Mem` | outcome type `Res` (value or undefined behaviour); byte buffers with bounds | all string models |
| `Arrays/*` | src/arrays.c 1-336: dynamic arrays, tuples, ranges, typed appends | C01-C05, C92 |
| `Str/Base64*` | src/arrays.c: base64 | C06-C08 |
| `Str/Search*`, `Str/Split*` | src/arrays.c: search, count, split, explode, replace, scheme_type | C09-C13, C60 |
| `Str/Misc*`, `Str/ItoaBase` | src/arrays.c: repeat, pad, str_lcpy, case folding, itoa, trim, concatenation | C14-C17, C19, C20, C58 |
| `Str/Path*`, `Str/Copy*` | src/arrays.c: pathinfo; copies, case conversion, str_has_either | C89-C91, C93 |
| `Str/Sort*` | src/arrays.c: memsort | C18 |
| `Uri/*` | src/arrays.c 1218-1250, 1282-1545: parse_uri, uri_free | C21-C23, C224 |
| `Deque/*` | src/deque.c and src/events.c: work-stealing queue | C24-C26, C61 |
| `Sched/Queue*`, `Requeue`, `Loop*` | src/events.c: intrusive task list, scheduler, yield/suspend/resume | C27, C56 |
| `Sched/Sorted`, `Sleep*` | src/events.c: delay, sleep queue | C28, C29 |
| `Sched/Timer*`, `Sched/Once` | src/events.c: actors (timers), rounds of the loop | C30, C31, C204-C206 |
| `Wheel/*` | src/events.c: descriptor timeouts (timing wheel) | C32, C33 |
| `Fd/*` | src/events.c, src/epoll.c, src/os_unix.c: registration, dispatch, signals | C34, C35, C62 |
| `Kq/*` | src/kqueue.c, src/events.c: the same on BSD and macOS | C64, C65 |
| `Tasks/Results*` | src/events.c: task ids, results, cancellation | C36, C57 |
| `Tasks/Generator*` | src/events.c: generators | C37 |
| `Tasks/Groups*` | src/events.c: task groups, waitgroups, placement on threads | C38-C40 |
| `Future/*` | src/future.c, src/events.c: futures, promises, job queues, queue_wait | C41-C43 |
| `Except/{Model,Spec,Lemmas,Props}` | include/except.h, src/except.c: try/catch/finally/throw | C44-C46 |
| `Except/Guard*`, `Except/Tasks` | guard, defer, fence, panic; several tasks on a thread | C47, C63 |
| `Except/Protect` | protected pointers | C48 |
| `Io/*` | allocator (C49), getopt (C50), async read/write (C51), addresses (C52, C59), pseudo descriptors (C53), spin lock (C54), environment block (C55), clocks (C202, C203) | C49-C55, C59, C202, C203 |
| `Fs/*` | src/os_unix.c, src/async_io.c: copying, reading, writing and closing files | C66-C70 |
| `Watch/*` | src/os_unix.c, src/events.c, src/epoll.c: watching directories on Linux | C71-C77, C198 (also src/os_windows.c `inotify_directories`) |
| `Proc/*` | src/os_unix.c, src/async_io.c: starting, spawning and waiting for processes; joining threads and sleeping | C78-C88 |
| `Udp/*` | src/async_udp.c, src/events.c: UDP sockets; freeing deferred memory | C94-C98 |
| `Io/Host` | src/arrays.c, src/async_uds.c, src/async_io.c: hosts of address texts, UNIX socket paths | C100, C101 |
| `Wait/*` | src/events.c: tasks waiting for a descriptor (`async_wait`) | C99 |
| `Tls/*` | src/async_tls.c: reading, writing, accepting and dialling with TLS; names of the certificate files; the name a server or client uses, and what a failed call leaves open | C102-C104, C142-C144, C221-C222 |
| `Tasks/Pool`, `Tasks/Start` | src/events.c, src/epoll.c, src/future.c: handing tasks to pool threads; creating and stopping them | C105-C107 |
| `Future/Value` | src/future.c, src/async_io.c: the values handed back by pool threads | C108, C109 |
| `Sock/*` | src/async_io.c, src/async_uds.c, src/events.c: making sockets, telling UNIX sockets, timeouts, looked-up addresses, clients' addresses, aligned memory | C110-C116 |
| `Except/Signals` | src/except.c, src/os_unix.c: turning signals into exceptions, beside the signals of the event loop | C117-C120 |
| `Future/Reuse` | src/future.c, src/events.c: the memory of promises and their arguments | C121, C122 |
| `Life/Model` | src/events.c, src/os_unix.c: starting and stopping the library | C123, C124 |
| `Except/Trying` | src/except.c: `trying` | C125 |
| `Rp/*` | src/rpmalloc.c: the allocator behind `events_malloc` and friends: size classes, mapping, blocks, aligned blocks, the lists of a heap, mapping of spans, caches, heaps of threads, concurrent frees, linked lists of spans, reallocation with an alignment, giving back heaps at the end, which blocks `rpfree` takes for its own, `mem_printf` | C126-C141, C199-C201, C219-C220 |
| `Tls/Names` | src/async_tls.c: names of the certificate files, self-signed certificates | C142-C144 |
| `Wepoll/*` | src/wepoll.c, epoll for Windows: the red-black tree, the queues, sockets of an epoll set and their poll requests, poll groups, reference counts of handles, time limits | C145-C155 |
| `Switch/*` | src/asm.c: the machine code that switches between tasks (64 bit System V, 32 bit x86, 64 bit Windows, 64 bit ARM, Windows on ARM), decoded from its bytes and executed on a model of the instructions it uses; `task_derive`, the sizes of `create_task`; where the stack lies with `ucontext` and `setjmp`, `tasks_stack_check`; the buffer of `udp_recv`; the signal by which `setjmp` tasks are made | C156-C163, C215-C218 |
| `Win/*` | src/os_windows.c (and src/arrays.c `memmem`): `basename`, `dirname`, `pread`, `pwrite`, `sendfile`, `os_open`, the table of pseudo descriptors behind `os_read`, `os_write` and `os_close`, records of directory changes, output and pipes of child processes, `socketpair`, `os_pipe`, `pipe2`, the life of directory monitors, include/compat/dirent_msvc.h, include/compat/wait.h | C164-C177, C196-C197, C207-C214 |
| `Kq/Update` | src/os_unix.c on BSD and macOS: how changes of a watched directory are found and reported | C178-C180 |
| `Tasks/Count`, `Tasks/PoolMain` | src/events.c: the number of tasks, the ends of `async_run` and of the loop of a pool thread | C181, C182 |
| `Tasks/Place` | src/arrays.c `is_ptr_usable` and its uses in src/events.c and src/async_io.c: at which addresses tasks work | C223 |
| `Pth/*` | include/compat/pthread.h, POSIX threads for Windows: barriers, `pthread_once`, cancelling, thread-specific values, the life of a thread, attributes, waits with a time limit | C183-C195 |
| `Io/PseudoRace` | src/os_unix.c `acquire_lock`, `release_lock`, `events_new_fd`, `os_mkfifo`: pseudo descriptors made by several threads | C225 |
| `Win/EnvBlock`, `Win/CmdLine`, `Win/ExecWait` | src/os_windows.c `exec_info`, `exec`, `os_exec_info`, `exec_wait`: environment, arguments and end of processes on Windows | C226-C228 |
| `Win/Fifo` | src/os_windows.c `os_mkfifo`, `os_open`, `os_accept_pipe`, `events_assign_fd`, `os_close`: named pipes on Windows | C229 |
| `Future/Defer` | src/events.c `deferred`, `_defer_init`, `__future_wrapper`, `active_task`, src/except.c `get_scope`, `scope_init`, `scope_unwind`, `scope_destroy`, `fence`, `exit_scope`: deferred functions outside of tasks | C230, C231 |
| `Io/SigRace` | `events_sig_handler`, `events_add_signal` cut at their accesses to `signal_running` and the saved mask, any number of threads | C232 |
| `Sched/Callback` | event callbacks inside of `tasks_schedulering` that yield, wait or defer | C233, C234 |
| `Win/Atomics` | the atomic operations of `include/catomics.h` for Microsoft's compiler, on a byte memory | C235 |
| `Tls/Keys` | making key pairs and self-signed certificates: OpenSSL objects and the two files, each OpenSSL call may fail | C236, C237 |
| `Tls/Errors` | the report of errors from OpenSSL's queue | C238 |
| `Except/Terminate` | the end of the program after an uncaught exception: message, functions for Ctrl-C and for the end, `exit` or `_Exit`, nested throws and signals | C239, C240 |
| `Win/WsaErr` | Winsock errors as `errno` and the loops that try again | C241 |
| `Tls/Text` | the text of a certificate out of a memory BIO | C242 |
| `Io/Fifo` | named pipes on unix: `os_mkfifo`, `os_open`, `events_pseudo_fd` | C243 |
| `Tls/CloseRace` | `tls_closer` beside threads that accept connections | C244 |
| `Io/Handlers` | the deferred close of `accept_handler`, `tls_handler`, `uds_handler` | C245 |
| `Kq/Monitor` | starting and ending the watching of directories on BSD and macOS | C246 |
| `Kq/SyncRead` | reading a directory monitor on BSD without a loop: length of the buffer, records seen | C247 |
| `Win/Signals` | handlers of signals on Windows, in several threads | C248 |
| `Except/Seh` | `try`, `throw`, `catch` on Windows with the filters of system exceptions | C249 |
| `Io/FdType` | `events_fd_type` on unix and Windows | C250 |
| `Future/Affinity` | masks of processors and binding threads on Windows and macOS | C251 |
| `Win/Watches` | several watched directories under one loop on Windows | C252 |
| `Win/Grow` | growth of the table of descriptors on Windows with operations going on | C253 |
| `Win/Dispatch` | a turn of the loop on Windows: completions, signals, waits | C254 |
| `Future/ThreadLocal` | emulated thread-local variables | C255 |
| `Win/Shutdown` | the end of the library on Windows, closing outside its life | C256 |
| `Io/Fprintf` | printing a text to a file in a pool thread | C257 |
| `Io/HostByName` | looking up hosts from several tasks | C258 |
| `Win/Loops` | several loops and one completion port on Windows | C259 |
| `Win/StdHandles` | standard handles and inherited handles of programs started on Windows | C260 |
| `Win/ExecRace` | programs started by several threads on Windows (one static name buffer) | C261 |
| `Except/Scratch` | how long texts returned by `str_itoa` and `ex_strerror` last; scopes and guard sections of several tasks | C262 |
| `Tls/Machine` | host name, description and system name in lazily filled buffers, several threads | C263 |
| `Wepoll/BaseSocket` | finding the base provider's socket under layered providers | C264 |
| `Tls/Eof` | asking whether a plain or secure connection has ended; the thread's queue of errors | C265 |
| `Win/Uname` | `uname` on Windows and the description made from it | C266 |
| `Future/Spread` | how blocking calls are given to the workers of the pool, several threads | C267 |
| `Fd/UserData` | pointers attached to descriptors | C268 |
| `Wepoll/Init` | the setup of epoll on Windows by several threads, with failures | C269 |
| `Wepoll/Errors` | error codes of the epoll functions on Windows, with the table of codes | C270 |
| `Tls/Trust` | choice of the file of trusted certificates, in any order of calls | C271 |
| `Rp/PosixAlign` | `rpposix_memalign` and `rpaligned_calloc` on top of aligned requests | C272 |
| `Fd/Blocking` | flags of open files, changed for a descriptor, shared and changed by others | C273 |
| `Proc/SpawnPipes` | pipes of a spawned program, its standard streams, failures | C274 |
| `Proc/InputEnd` | who holds the input of spawned programs open | C275 |

## Modelling conventions

* Undefined behaviour of C (access out of bounds, after free, uninitialised, NULL dereference, signed overflow) and failed
  assertions are a distinct outcome (`Res.ub`, `none`, or a flag in the state, as each module's header says), never a default
  value.  Theorems that say a function is right therefore also say that it is defined.
* Loops that are not structurally recursive run on fuel.  Running out is a failure outcome, so every positive theorem shows the
  fuel suffices; non-termination is stated as "for every fuel".
* Strings are lists of bytes; the terminating NUL is in the buffer where it matters.
* `size_t` and pointers are `Nat` where fewer than 2^64 bytes of memory rule out a wrap-around, and `BitVec`, `UInt64` or explicit
  `% 2^k` where the property is about wrap-around, truncation or bits.
* Concurrency: any number of threads, arbitrary interleavings (`foldl step` over all schedules), one memory access per step,
  **sequentially consistent**.  Effects of weaker memory orders are outside of the model.
* The kernel, other threads and callbacks are oracles: arbitrary functions or lists quantified over in the theorems.
* Memory allocation succeeds, except in C49.  Whether `realloc` moves a block is an oracle.
* Time is what the clock returns, arbitrary but not running backwards where a theorem says so.

## What a status means

* `proved`: the theorems together say what the property says, for all inputs or executions the model has.
* `partial`: the property as stated is false of the code, or needs a condition.  The theorems named `..._partial` have the
  condition as hypothesis; the others prove that the property fails outside of it, for all parameters where that is possible and
  otherwise by a concrete execution.  The note in `MANIFEST.json` says what is missing.

## Trusted base

* the Lean 4 kernel and the axioms listed at the end (only `propext`, `Classical.choice` and `Quot.sound`; no axioms of our own,
  no `sorry`, no `native_decide`, no `bv_decide`);
* that the definitions say what the C code does: each one cites the lines it transcribes and its simplifications;
* C library and kernel interfaces, modelled by their documentation: `memchr`, `memcmp`, `memcpy`, `memmove`, `strlen`, `strstr`,
  `strtoul`, `sscanf("%u")`, `isspace` and relatives in the C locale, `realloc`, `setjmp`/`longjmp`, `epoll_ctl`/`epoll_wait`,
  `dirname` and `basename` (transcribed from glibc), `kevent`, `read`/`write`, `sigaction`, mutexes and atomic operations;
* the statements of the properties.

## Parts of the code that are not modelled

* Windows: of src/os_windows.c everything but the functions named at `Win/*` (among others terminals, signals, starting of
  processes, threads), the `_WIN32` branches of the other files; of src/wepoll.c (epoll for Windows) the layer that calls the driver
  (`afd_*`, `ws_*`), the table of error numbers and the loading of the system functions.  Of the bundled allocator src/rpmalloc.c the
  statistics, the optional features that are off by default and the finalising of the whole allocator.
* Context switching other than the machine code of `Switch/*`: the `ucontext` and `setjmp` variants (but for where the stack lies), fibers, and the branches of
  src/asm.c for 32 bit ARM, PowerPC and RISC-V.  In all other parts of the model a switch is a transfer of control that keeps the
  stack of each task.  The decoders and the instruction semantics of `Switch/*` (only the instructions
  that occur) are part of the trusted base.
* Machine-level signals raised by faults (`ex_signal*`, src/except.c 449-859), backtraces.
* the contents of certificates (src/async_tls.c: only the names of the files and when they are written are modelled), and UNIX
  sockets beyond their paths.
* Of process creation signal dispositions and the working directory; of the file system wrappers (`fs_*`) those that are a single system call; path watching
  on BSD and Windows.
* Printing (`cout`, `cerr`, `tasks_info`), program start and end (`events_start`, `events_deinit`), pool set-up
  (`events_init_pool`, `events_create_pool`).
* Functions that only read or set a field or call one library function.


## Results

| id | property | status | limits and failures found |
|---|---|---|---|
| C01 | Array histories behave like a list | partial | Holds while realloc keeps the block in place, and in all cases while the history stays within the initial capacity. False in general: $append takes the array by value, so a moving realloc leaves a dangling handle (array_history_moving_ub). |
| C02 | Appending to an empty array that was produced by the library is safe | partial | Proved for arrays, range and range_char with every allocator, and for non-empty $copy and rangeing when realloc keeps the block in place. False for arrays produced empty by $copy/rangeing (capacity 0: the append writes past the block), and a moving realloc leaves a stale handle. |
| C03 | Tuples are immutable | proved |  |
| C04 | $copy gives an equal and independent array | partial | Equality and independence when realloc does not move; false for long sources with a moving realloc (copy_long_moving_ub). |
| C05 | range / rangeing / range_char contents | partial | rangeing with step 0 never ends (proved); positive steps proved, see theorem. |
| C06 | Base64 round trip | proved | For sources below 3 GiB (see C07). |
| C07 | Base64 never writes past the destination and has the exact documented length | partial | Decoder complete; encoder for sources below 3 GiB. False at 3*2^30-2 bytes because of the 32-bit mask ~3u (str_encode64_overflow). |
| C08 | Base64 decoding rejects malformed text | proved |  |
| C09 | Substring search finds the first occurrence | partial | All texts below 2 GiB; beyond that the int return value truncates (mempos_truncates). |
| C10 | Occurrence counting | proved |  |
| C11 | str_split_ex loses nothing | proved |  |
| C12 | str_explode loses nothing | partial | False when the delimiter does not occur: the result is the empty array. |
| C13 | str_swap_ex replaces every occurrence | proved |  |
| C14 | str_repeat | proved |  |
| C15 | str_pad | proved |  |
| C16 | str_lcpy bound and termination | proved |  |
| C17 | Case-insensitive comparison is an equivalence on ASCII case classes | proved |  |
| C18 | memsort sorts | proved |  |
| C19 | str_itoa prints the decimal representation | partial | On IBM Z (ItoaBase) right for every int and false for all wider numbers. Elsewhere right for 0 <= x < 2^31. False otherwise: negatives lose the sign, larger values are truncated to 32 bits, INT_MIN is undefined; every call reads at least 10 bytes past a local array. |
| C20 | trim removes exactly the outer white space | partial | Right whenever the string has a non-blank byte; on every empty or blank string trim reads before its start. |
| C21 | parse_uri splits a well-formed URI into its components | partial | Proved for every well-formed URI whose host has a dot or is the name of the machine; every other well-formed URI is refused (proved). |
| C22 | Parsed ports are in range | partial | Range and origin of the port proved for all texts; the exact-number part is false, trailing text, blanks and signs are accepted. |
| C23 | Parsed URI components contain no control characters | proved | C locale. |
| C24 | The work-stealing queue hands out each task exactly once | partial | All interleavings of one producer and any number of thieves (sequentially consistent memory), as long as no thief reads a freed array; unconditional when the ring never grows. False in general: deque_resize frees the old array while a thief may be about to read it (witness for every initial size). |
| C25 | The owner can take from the queue safely | partial | Right for all sequential histories that begin with a push, and for takes that overlap steals in any way while one task is left. False on a fresh queue (index underflow) and false when a take overlaps steals with two or more tasks in the queue (a task is delivered twice). |
| C26 | Growing the work queue preserves its contents | proved |  |
| C27 | Run queue is FIFO and loses no task | proved |  |
| C28 | A sleeping task never wakes before its deadline and wakes in deadline order | proved |  |
| C29 | delay reports the time actually slept | partial | Right below 2^32 ns; false for every longer sleep because the difference is cut to 32 bits before the division. |
| C30 | One-shot actors fire once, not early, in time order | partial | Exactly-once, never-early, in-order proved for all histories. False: a pending actor that is cleared is still called; a repeating actor that does not re-arm counts as active for ever; re-arming then clearing in one call frees a listed actor. |
| C31 | Actor deadlines are now + ms | partial | Right for 0..2147 ms; signed overflow for every longer duration. |
| C32 | File-descriptor timeouts fire once, not early, and never get lost | partial | Proved for all histories in which deadlines lie within the wheel and a timeout callback touches no other registered descriptor. False outside: timeouts beyond 128 ticks fire early, timeouts set after an idle period fire at once, touching another due descriptor in a callback aborts or fires it anyway, max_timeout 0 divides by zero. |
| C33 | Two-level timeout bitmap is consistent | partial | Invariant proved for all legal histories. False when a callback re-arms another due descriptor and when a registered descriptor is added again. |
| C34 | Only registered descriptors of the loop are called back, with the events asked for | partial | Proved for all histories: only the registration in force is called, and nothing after deletion. False parts: a hang-up is reported as READ and TIMEOUT, error-only events are never delivered, an interest narrowed by a callback is still served in the same batch, and in a signal handler deleting a descriptor of the same number deletes the signal instead. |
| C35 | events_add / events_del keep the descriptor count | partial | Exact formula for every legal history; right if no registered descriptor is added again. False when one is: the count stays too high for ever. |
| C36 | Result ids are unique and results stable | partial | Proved for all histories of creations, returns and cancellations on one thread with fewer than 2^31 result tasks, for tasks that have a result. False: plain tasks take ids from another counter that collide with result ids; with several threads the table pointer is read and stored without a lock around a reallocation. |
| C37 | Generators hand over every value once and in order | partial | Order and no repetition proved for all interleavings while the generator is alive. False at the end: asking once more after the last value reads the freed generator, and a value yielded just before the end can be lost (both proved). The consumer queues a generator that is already queued, which can drop other tasks from the run queue (requeue_drops). |
| C38 | A task group collects exactly the results of its tasks | partial | Proved for every group and every finishing order, for the latest group of the calling task. False for an earlier group of the same task (returns at once) and when re-queueing a queued task drops tasks from the run queue. |
| C39 | Waitgroup tasks are partitioned over the worker threads | partial | Partition proved for every group with at least threads * share tasks. False otherwise: fewer tasks than declared dereference NULL, a declared capacity above that of a new array leaves a dangling group when realloc moves, and a pool thread with two or more jobs never completes its wait. |
| C40 | Round-robin placement is fair | partial | Proved up to the wrap-around of the 64-bit counter, and across it when the number of threads divides 2^64; false across it for every other number of threads. |
| C41 | A promise delivers its value once set, exactly as set | partial | What every getter sees is proved for all histories of a thread; values are right, and exceptions are right if no other future of the thread failed in between. False: exceptions are kept per thread, so a getter can report the exception of another future, lose its own, or never end. |
| C42 | Queued jobs run in submission order on their worker | partial | Proved for every schedule of submitters and workers as long as the job array does not move when it grows. False when it moves: the worker keeps a handle to the old array and takes jobs from freed memory. Outside of the model: queue_work with no argument returns NULL and runs nothing. |
| C43 | queue_wait calls back once for every queued promise | proved |  |
| C44 | An exception reaches the nearest enclosing matching handler | partial | Machine of records, stages and jumps proved equal to a big-step semantics for all programs within the rules of Verif.Except.Spec (no return out of a try body, catch_if only together with finally or accepting). See C45 and C46 for what fails outside of them. |
| C45 | finally runs exactly once | partial | Proved for all programs in which every try has a finally and that stay within the rules. False: a catch_if block that does not accept the exception runs twice when there is no finally. |
| C46 | The handler stack is balanced | partial | Proved for all programs without return inside of try. False with return: the record of the left function stays current and the next throw jumps into it. |
| C47 | Deferred functions run LIFO, exactly once | partial | Proved for all programs within the rules of the specification, for one thread and for several tasks. False: an unaccepted panic reads a freed block, accepting in a scope with fence does not stop the panic, a try inside of a fenced guard runs the deferred functions early, a task defers into the guard section of another task. |
| C48 | Protected pointers are released on unwinding | partial | Proved for all histories in which variables are unprotected newest first within their try and the protected objects are valid and neighbours differ. False otherwise, with a theorem for each case. |
| C49 | Installing an allocator is all-or-nothing | proved |  |
| C50 | getopt_has finds flags and their values | partial | Exact condition proved for all argument vectors. The claim is false in three cases, each with a theorem: an argument that is a substring of the help text hides later flags, a flag in last place has a NULL value, a value is cut at its own equals sign. |
| C51 | async_write writes everything, in order, without duplication | proved |  |
| C52 | Address strings are parsed to the address and port written | partial | Dotted addresses, host names and bracketed addresses proved. False: every port-only text gives port 1, as do host names beginning with a digit and addresses without port; ports wrap, octets spill, trailing text is ignored. |
| C53 | Pseudo descriptors are allocated uniquely | partial | Uniqueness and lookup for all histories of calls made one after the other (C225: overlapping ones). Release holds for closing an index with a descriptor; false for an index without descriptor and for events_free_fd, which never release; a real descriptor of the same number is redirected. |
| C54 | Spin lock gives mutual exclusion | proved | Sequentially consistent memory. |
| C55 | exec_addenv builds the environment block | partial | Proved for all lists of pairs of at most 2047 bytes each. Longer pairs read out of bounds or lose the separator; the block is never NUL-terminated. |
| C56 | Cooperative scheduling is fair and yields resume where they left | partial | Proved for turns in which no queued task is queued again. False with the operations that re-queue a queued task (tasks_wait, waitfor, yielded) or resume one directly. |
| C57 | Cancelled tasks are reported cancelled and others are not | partial | Proved for all histories on one thread for tasks with a result and id at least 1. False: id 0 is never cancelled, and a plain task sees the flag of another task with the same number or reads an uninitialised slot. |
| C58 | Concatenation helpers concatenate | partial | str_cat_ex proved. str_cat_argv right only on the first call; later calls see the stale static buffer. |
| C59 | IP address text validation | partial | Every dotted quad is accepted with its value, with or without port and scheme, and quads with numbers above 255 (below 2^32) are rejected. Not exactly: many other texts are accepted, some with indeterminate bytes. |
| C60 | scheme_type classification | partial | Exact behaviour characterised for all strings; the listed schemes are right; unlisted fragments are accepted, so the claim as stated is false. |
| C61 | Tasks started by several threads on one worker all arrive | partial | False: two concurrent pushes can lose a task (witness). The single-producer case is C24. |
| C62 | Signals are delivered to their callback until removed, and do not disturb descriptors | partial | Registration, delivery and self-removal proved for all states. False: removal outside of the handler aborts, signal and descriptor of equal number share one entry, a signal whose callback is replaced counts twice. |
| C63 | Exceptions stay within a task | partial | False: the handler chain belongs to the thread. Proved for the histories in which no two tasks are inside of a try at the same time. |
| C64 | On BSD and macOS the kernel watches what is registered | partial | Proved for every history that keeps the rules (a descriptor is closed before it is registered again), any batching of changes and any callbacks. False: READ together with WRITE is watched for reading only; a descriptor deleted but not closed stays watched; adding a descriptor again while its change is pending loses the changes queued before it; directories are never watched at all. |
| C65 | On BSD and macOS a poll calls back registered descriptors with the event that happened | partial | Proved for every history and kernel report without end-of-file. False with end-of-file: WRITE is reported as no event, READ looks like input. |
| C66 | Copying a file gives the same contents or an error | partial | Proved when one sendfile call moves the whole file. False otherwise: the offset is advanced twice (by sendfile and by the loop), so files above 0x7ffff000 bytes and short transfers lose bytes while 0 is returned; copying a file onto itself empties it. |
| C67 | os_copyfile never overwrites and copies exactly under short and interrupted transfers | proved |  |
| C68 | Writing a whole file replaces its contents and failures are reported | partial | Proved for new files and files not longer than the text. False: a longer file keeps its tail (no O_TRUNC), a text above 512 MiB makes the pool thread read wild memory, and a failure to open gives 0, so fs_touch answers true though there is no file. |
| C69 | Reading a whole file gives all of it as a terminated string | partial | The result is always a terminated beginning of the file; it is the whole file up to 0x20000000 bytes when read is not short. False otherwise: one read, result ignored, and a longer read makes the pool thread read wild memory (C108). |
| C70 | fs_close closes an open descriptor, once | partial | Proved for one worker thread. False for every larger number of workers: open, close, open, close can leave the second descriptor open. |
| C71 | Each change record with a name is reported once, in order, with its kind and path | proved | The changes of a watched directory itself (deleted, moved) carry no name and are never reported, though the watch asks the kernel for them. |
| C72 | A change is reported for the directory it happened in | partial | Proved when the table entries of the numbers the kernel gives are free. False otherwise: the handler looks the directory up under the number of the kernel, but the entry was allocated elsewhere; with monitor descriptor r every tree of more than r directories reports wrong directories (or prints a null pointer), and so does a second monitor. |
| C73 | A directory tree of any size can be watched | partial | Proved when the table has a free entry for each directory. False for every larger tree: index -1 is used. |
| C74 | Closing a monitor releases all its watches, removing one releases that one | partial | Removing one watch proved exact. Closing proved for monitors with at most one watch; with more, every second entry stays in use for ever. |
| C75 | Stepping with inotify_next visits every record read | partial | Right for a single record. False otherwise: inotify_next always answers that there is no further record, and where it would find the buffer it would step 16 times too far. |
| C76 | Changes in a watched directory reach the handler through the event loop | partial | False with the epoll backend: EVENTS_PATHWATCH has no READ bit, so events_update_internal returns before epoll_ctl and the poll loop skips the descriptor. Proved: records are handed over if the user sets READ on the monitor by hand. |
| C77 | Cancelling a monitor ends that monitor and no other; removing its directory ends it | partial | Proved: the cancelled monitor ends and other loops are not touched. False: every other monitor of the same loop ends with it, removal of the directory does not end a monitor, and a directory that cannot be watched makes the task read before the table. |
| C78 | A started program receives the arguments it was given | partial | Proved for arguments without commas. False: no argument can contain a comma, and with NULL the program is given one empty argument. |
| C79 | A started program has the environment it was given | partial | Proved for two or more assignments. False: NULL gives an empty environment instead of the parent's, and a single assignment without a semicolon is dropped. |
| C80 | A started program's standard streams are the ones named | partial | Proved except for descriptor 0 as output or error (ignored), descriptor 1 as error with redirected output (gets the new output), and pipes on standard descriptors. A spawned program also holds the pipes of other children. |
| C81 | Waiting for a process reports how it ended | partial | Exit codes, interruption and timeout 0 proved. False: every other timeout is ignored, and a wait for a detached process returns success at once. |
| C82 | Waiting for a process closes nothing but its own descriptor | partial | Proved if the process number is not an open descriptor; otherwise that descriptor is closed. |
| C83 | Handles of processes are unique and starting is safe | partial | Freshness proved. Safe while fewer than 255 processes are unfinished; the 256th, or a failed eventfd, accesses memory before the table. |
| C84 | A process that could not be made is reported | partial | False: a failed vfork is returned as a started process; its handle is never released. What holds: a wait for it fails with EINVAL. |
| C85 | The output of a spawned process reaches its callback | partial | Order and absence of repetition proved. Completeness is false: output still in the pipe when the task finds the process ended is thrown away, and a full pipe is never read again. |
| C86 | The end of a spawned process is reported once and truly | partial | Proved for processes that were made and registered. False: the second argument is a copy of the first, a failed vfork is reported as exit with status 0, and with a failed registration nothing is reported. |
| C87 | A finished process stays finished | partial | Proved until the handle is given out again, which the next spawn normally does. |
| C88 | Joins and sleeps keep their times, joins deliver the exit code | partial | Joins proved. Sleeping is proved if no signal is handled meanwhile; a signal cuts it short. |
| C89 | pathinfo splits a path | partial | Every form of path characterised. Right when a slash precedes the last name. False otherwise: the directory of a plain name is the name itself, and of the empty path the empty string; a trailing slash is cut off the caller's string. dirname and basename are transcribed from glibc. |
| C90 | Copies of strings are exact and terminated | partial | str_dup, str_trim and str_trim_at proved for pieces within the string. False: a longer length reads past the object, and str_cpy writes no terminator. |
| C91 | Case conversion | proved | C locale. |
| C92 | Typed appends read back | partial | Proved for reading through the type of the append, realloc in place (C01 gives the moving case). False: the upper bytes of a char, bool or short element are left over from earlier elements. |
| C93 | str_has_either finds either pattern | partial | Exact behaviour proved. False: mixtures of the two patterns are accepted, a second pattern in a text shorter than the first is missed, and a shorter second pattern is read past its end. |
| C94 | Memory given to defer_free is freed at the end of the task and nothing else happens | partial | False in general: deferred_unwind tells plain memory from its own objects by the first bytes of the block, so for every function and argument there are 40 bytes of contents that make the end of the task call it; blocks of less than four bytes are read beyond their end. Proved for memory that does not start with one of the four type numbers. |
| C95 | Every datagram is received whole, once and in order | partial | Exact description for all executions; holds for datagrams of 1 to 49152 bytes. False for empty datagrams (reported as a failure) and longer ones (cut without notice). |
| C96 | A reply to a UDP packet goes to its sender | partial | False once another receive has happened on the socket: the reply goes to the sender of the latest datagram, and udp_ip names that sender. Proved up to the next receive. |
| C97 | UDP packets live as long as they are needed and are freed once | partial | False: the socket keeps pointing to the packet received last, which its handler frees, so the next receive uses freed memory; asking for a message late frees part of the descriptor table; a crafted datagram makes the end of its handler call any function. Proved while no task ends, for one packet handled completely, and that no message is freed twice. |
| C98 | async_sendto sends to the destination set with udp_to | partial | False for IPv6 destinations (always refused) and after a receive (the destination is overwritten by the sender). Proved for IPv4 until the next receive. |
| C99 | A task that waits for a descriptor is woken by the next event on it | partial | False when two tasks wait for one descriptor: the second registration replaces the first and the first task is never woken (so a socket cannot be read by one task while another waits to write it). Also never woken: waits for descriptors beyond the limit, and error conditions alone. Proved for all histories in which waits for a descriptor do not overlap. |
| C100 | Address texts are split into host and port | partial | False: an IPv4 address with a scheme and no port gives a wild pointer; with the memory mode of udp_to every host:port text is read after it was freed, and a plain host gives null; hosts of up to 6 bytes keep their port; a bracketed address is cut off in the caller's text. The remaining forms are proved. |
| C101 | UNIX socket paths: server, client and clean-up agree | partial | Right for paths of up to 106 bytes without colons and double slashes. False for longer ones: bind, connect and unlink use different names. |
| C102 | Reading from a TLS connection | partial | False when a wait ends with a hang-up reported: the reader fails although the library might still deliver data. Proved for all other wake-ups, and soundness of every result for all scripts. |
| C103 | Writing to a TLS connection | partial | What is reported is exactly what was accepted. False: a length of 0 sends everything up to a NUL, and short results of the library are not completed. |
| C104 | TLS connections are handed out only after the handshake, and cleaned up otherwise | partial | False: a failed accept is used as an index before the descriptor table, and a failed handshake of tls_dial asks a null pointer for its error text. The remaining outcomes are proved. |
| C105 | Tasks given to a pool thread arrive exactly once and in order | partial | For one starting thread, over the queue as a list (C24-C26 relate it to the array); with several starting threads a task can be lost (C61). That the pool thread keeps calling task_take: C182. |
| C106 | Every processor gets its thread at start-up | partial | Proved if the system grants everything. False: a second events_init_pool, or accepting a connection where no processor is left for a pool thread, reads beyond the table. |
| C107 | Creating and stopping pool threads reports the truth | partial | False: after a failed thread creation the next call reports success; a failed events_create leaves the released loop in use; shutdown with an extra loop reads beyond the table. |
| C108 | Results of blocking calls made in the pool come back unchanged | partial | False for numbers above 0x20000000: they are taken for pointers (a read of more than 512 MiB crashes). For pointers the memory in front of them decides. |
| C109 | The counts of async_fwrite and fs_fwrite | partial | The count of the library is returned up to 0x20000000 items. False: failures of fflush and fclose are not seen, and from 2^31 items on the count is wrong. |
| C110 | A server socket is made completely or not at all | partial | Failures release everything, except async_socket on a UNIX socket that cannot listen. False: async_bind returns sockets that do not listen, can never bind IPv6, sets SO_REUSEADDR depending on an unset variable; async_socket remembers 16 of 28 bytes of an IPv6 address. |
| C111 | Connecting succeeds completely or leaves nothing, and errno tells why | partial | The first half is proved. False: errno after a connection that fails while waiting is always ENOTCONN. |
| C112 | UNIX sockets are told from other descriptors | partial | Proved while numbers of UNIX sockets are not reused by files or accepted connections and the tasks that made UNIX sockets run. False otherwise: a stale or freed record is looked at. |
| C113 | The timeout of a socket is the one asked for | partial | Exact up to 2147483 ms. False: an int overflows for every longer timeout. |
| C114 | Looked-up addresses fit the memory given | proved | getaddrinfo is an oracle. |
| C115 | An accepted client's address and port | partial | Proved for IPv4. False for IPv6: 16 bytes are passed, so longer texts are lost. |
| C116 | Aligned tables lie within their blocks | proved | For sizes whose sum with the padding fits in size_t (the callers stay far below). |
| C117 | A signal throws the exception of its name | proved | Programs that use the public functions (ex_signal itself is not declared in a header). |
| C118 | Inside a try statement signals are exceptions | partial | False for a signal that the event loop listened to and released: it keeps the default action. |
| C119 | ex_signal_default gives all signals back | partial | False for SIGPIPE, which is missing in the list; and the next try, guard or task undoes it. |
| C120 | A signal given to the event loop stays with it | partial | False for SIGINT, SIGTERM and the other signals that become exceptions, if the first try, guard or task comes later: it installs its own handlers. |
| C121 | The memory of a job outlives its use | partial | Proved if the scope of the caller ends after the worker and the task of the handler are through. False otherwise: the result is reported before the worker is through with the promise. |
| C122 | A promise serves several operations in turn | partial | Proved for one operation. False for every second one and for the cleaning up: the worker has deleted the arguments that the promise still points to. |
| C123 | events_init returns 0 only when the library is ready | partial | Proved if no call before failed. False after one that failed: the next call returns 0 without a descriptor table and queues. |
| C124 | Starting and stopping frees everything once | partial | Proved if the table of pseudo descriptors and the event descriptor can be had. False otherwise: the tables are gone through without being there or cleared. |
| C125 | trying returns a live value with the result | partial | Proved outside of guard sections and tasks. False in them: the value is freed as soon as tryFunc throws, and the result of catchFunc is written into it afterwards. |
| C126 | Every small or medium request has a fitting size class | proved | For the table as computed at the start, 126 classes merged as the code merges them. |
| C127 | malloc gives at least the memory asked for | partial | Proved for requests up to 2^64 - 65536 - 128 - one page. False above: the sums wrap around and the block ends beyond the memory mapped for it. |
| C128 | calloc gives and clears num times size bytes | partial | Proved if the product is not close to 2^64 or above. False otherwise: the product wraps around and a small block is returned. |
| C129 | Freeing a huge block unmaps exactly what was mapped | partial | Proved for blocks of less than 2^32 pages. False above: the number of pages is kept in 32 bits. |
| C130 | The usable size reaches exactly to the end of the block | proved | For blocks of size classes, large and huge blocks. |
| C131 | realloc keeps the contents | proved | New blocks are assumed large enough and disjoint from the old one, which is C127 and C132. |
| C132 | No two live blocks overlap | proved | For small and medium blocks, operations atomic. Spans in use are assumed to be at distinct multiples of the span size, which is what mapping provides (C129). |
| C133 | Aligned requests are aligned and large enough | partial | Proved for powers of two below the span size and sizes below 2^61 bytes and 2^30 pages. False above (sizes near 2^64 are served like a request for nothing) and for alignments which are no power of two (neither refused nor met). |
| C134 | The allocator's lists and counters stay consistent | proved | For small and medium blocks, operations atomic, heaps not finalised meanwhile. |
| C135 | Freed memory is reused before new memory is taken | partial | Proved as stated. Not true without the exception: blocks freed by other threads are not reused while another block of a fully used span is live and the owner frees none of them. |
| C136 | Memory ranges handed out by the allocator's mapping layer never overlap | proved | Page sizes up to 64 KiB, operations atomic; what the kernel maps is assumed not to overlap what is mapped already. |
| C137 | A mapped range is given back to the system exactly once, and only when nothing of it is used | proved | Page sizes up to 64 KiB, operations atomic. |
| C138 | Freed spans go through the allocator's caches without being lost or handed out twice | proved | Operations atomic, except that kept spans may be put into the common cache at any later time; heaps not finalised meanwhile; pages no larger than spans. |
| C139 | A heap is worked on by at most one thread | proved | For programs in which every thread takes the lock; main_thread_shares_heap shows that a program calling rpmalloc_set_main_thread (declared in no header and called by nothing in the library) could share a heap. Memory is sequentially consistent; new heaps are made in one step under the lock. |
| C140 | Blocks of one span can be freed by several threads at the same time | proved | One span from its initialisation to its release; memory is sequentially consistent. |
| C141 | Spans freed by other threads are collected exactly once | proved | Memory is sequentially consistent. |
| C142 | The file names of certificate, request and key belong together | proved | For host names shorter than MAXHOSTNAMELEN. |
| C143 | The directory given to use_certificate is the one used | partial | False of the code: the directory is taken only from the first call (use_certificate_again_ignored), and default_cert_path before use_certificate makes the file names lose their directory (cert_path_detaches). use_certificate_first_partial is the case that holds. |
| C144 | Self-signed certificates are made when needed and never over files of the user | partial | False of the code: use_secure_client after use_certificate(path) overwrites the private key of the user (own_key_overwritten), and the marker left by a client stops use_certificate(NULL) from making its certificate (marker_without_certificate). The two partial theorems are the cases that hold. |
| C145 | The table of sockets of an epoll set behaves as a map (Windows) | proved | Pointer-level model of the red-black tree; the keys are natural numbers (uintptr_t compared only). |
| C146 | Finding a socket of an epoll set takes logarithmic time (Windows) | proved |  |
| C147 | The queues of an epoll set keep every element once and in order (Windows) | proved | Pointer-level model. |
| C148 | Memory of sockets outlives their poll requests (Windows) | partial | False of the code for closing: epoll_close frees the blocks of outstanding requests, into which the system still writes its results (close_frees_blocks_of_requests). Proved for every other operation: no use of a freed block, no failing assertion, no lost block; closing frees everything. |
| C149 | epoll_wait reports what was registered, and only that (Windows) | proved | The system (answers to requests, packets) is arbitrary; each critical section is one step. |
| C150 | While a thread waits, every registered socket is watched (Windows) | partial | False of the code if the system refuses a request with an error other than an invalid handle: the socket stays first in the queue and every epoll_wait fails, so no other socket is watched any more (one_refused_socket_blocks_all). Proved if no request and no cancellation is refused. |
| C151 | Driver events and epoll events correspond exactly (Windows) | proved | EPOLLMSG is accepted but has no driver event, so it is never reported (message_never_reported). |
| C152 | Driver handles are shared by up to 32 sockets and not hoarded (Windows) | proved |  |
| C153 | Closing an epoll handle on Windows while other threads use it | partial | False of the code in one place: an epoll_ctl that found the handle before another thread closed it, and that needs a new driver handle, fails the assertion that the completion port is open (add_while_closing_asserts says exactly when). Everything else is proved for all schedules. |
| C154 | epoll_pwait2 on Windows waits for the time asked for | partial | False of the code, which takes a remainder where it should divide: every whole number of milliseconds, zero included, becomes 999999 ms (whole_milliseconds_wrong), other times end too early (one_more_is_too_early), long ones overflow. pwait2_right_iff_partial says exactly for which times the wait is right. |
| C155 | epoll_wait on Windows keeps its time limit | partial | False of the code in one place: a refused poll request found on behalf of another waiting thread overwrites the last error, so that a time-out is reported as -1 (timeout_reported_as_error). The rest is proved. |
| C156 | A task goes on where it stopped (64 bit System V) | proved | The bytes of the code are decoded and executed by a model of the instructions used. |
| C157 | A task finds the floating point settings it had (64 bit System V) | partial | False of the code: MXCSR and the x87 control word are not saved (control_bits_leak). They are kept if no task changes them (control_bits_partial). |
| C158 | A task goes on where it stopped (32 bit x86) | proved | As for C156, with the 32 bit code. |
| C159 | A task goes on where it stopped (64 bit Windows) | proved | The handles must be divisible by 16, otherwise the switch faults (misaligned_handle_faults). |
| C160 | A task goes on where it stopped (64 bit ARM) | proved | The words of the code are decoded and executed by a model of the instructions used. |
| C161 | A switch leaves the rest of a task alone (Windows on ARM) | partial | False of the code: 192 bytes are used where the handle has 176 (windows_overwrites_task, windows_task_unrecognised, windows_wrong_bounds). It holds if the 16 bytes after the registers are not used for anything else. |
| C162 | The first switch to a task starts its function | proved | The function that starts the task must leave its return address alone; what it does is modelled elsewhere (C28, C33). |
| C163 | task_done is entered as by a call | partial | False of the code on x86: task_done is entered with a stack pointer 8 (12) bytes off (task_done_misaligned). It is entered, with room above (task_done_partial). |
| C164 | The last name of a Windows path | proved | In the "C" locale. |
| C165 | The search in memory on Windows | proved | memchr and memcmp as in the standard. |
| C166 | The directory of a Windows path | partial | False of the code: the drive is dropped (dirname_drops_drive) and it reads in front of the buffer (dirname_root_ub). The buffer holds drive and directory (dirname_partial). |
| C167 | Positioned reads and writes on Windows | partial | False of the code when the transfer fails (pread_failure_moves) and with other users of the descriptor (pread_not_atomic). |
| C168 | Sending a file on Windows | partial | False of the code: sendfile_offset_stays, sendfile_short_write_loses, sendfile_null. Right bytes if every write is complete (sendfile_partial). |
| C169 | Opening files on Windows | partial | False of the code for most flags; async_open_partial has the combinations that are right. |
| C170 | Reads and writes on Windows reach what the descriptor stands for | partial | False of the code: route_outside, route_write_noloop, new_fd_stdout. Numbers inside the table are right (route_partial). |
| C171 | Closing a descriptor on Windows closes what it stands for | partial | False of the code: close_socket_leaks, close_pipe_stays, close_aborts. Other entries are closed (close_partial). |
| C172 | Changes of directories on Windows are all reported | partial | False of the code as soon as a report has two records (changes_lost, inotify_next_wrong). |
| C173 | Output of a child process on Windows arrives unchanged | partial | False of the code when a chunk is read before the last is fetched (pump_overwrites). |
| C174 | Several child processes at once on Windows | partial | False of the code: second_child_fails. One child at a time works (child_partial). |
| C175 | The two sockets of a pair are connected to each other on Windows | proved | A socket that was connected has a port. |
| C176 | A pair of sockets that fails leaves nothing open on Windows | partial | False of the code behind the accept (socketpair_closes_twice). |
| C177 | Pipes on Windows fit the array of the caller | partial | False of the code on 64 bit Windows (os_pipe_overruns, pipe2_wrong_second). |
| C178 | Modified files in a watched directory are reported on BSD and macOS | partial | Proved for a directory listed in the order in which the files are known. Events of other kinds (a link) are reported as modifications too (other_is_modified). |
| C179 | Removed files in a watched directory are reported on BSD and macOS | partial | Proved if the files listed before it are unchanged and it is not the last one, or no removal went before. False otherwise (removed_last_missed). |
| C180 | New files in a watched directory are reported on BSD and macOS | partial | False of the code in every case: the name is read after closedir (added_dangling); files listed last are missed (added_last_missed); the next event takes a known file for new (added_then_twice). |
| C181 | The loop of tasks ends when all tasks have ended | partial | Proved for programs in which every wait for a group meets a sleeping member. False after any other wait (bare_wait_never_right, main_not_resumed). Operations that queue a queued task again are left out (C56). |
| C182 | A pool thread serves every task that it is given | partial | Proved while no group is posted to the thread. False otherwise: the end of a group lowers the number of tasks once too often and the thread stops (group_ends_thread). A wait with two or more jobs does not end at all (C39). |
| C183 | A barrier lets groups of threads through together | proved | The critical section is taken to exclude others; each stay in it is one step. |
| C184 | Nobody is left behind at a barrier | proved |  |
| C185 | pthread_once runs its routine exactly once | partial | At most once, and a return only afterwards: proved for all interleavings. That a caller always gets through is false if the routine calls pthread_exit (once_exit_hangs); proved otherwise. |
| C186 | A cancelled thread runs each cleanup handler once | partial | Proved with one cancellation pending. False with more (cancel_repeats, cancel_two_threads) and for pthread_exit (exit_skips_handlers). |
| C187 | A thread that has disabled cancellation is not cancelled | partial | Proved for the deferred type. False for the asynchronous type (disabled_async_dies). |
| C188 | Keys for thread-specific values are told apart | partial | Keys are distinct in all histories. False: create_after_failure_faults, delete_past_end. |
| C189 | A thread reads the value it has set | partial | A read gives the last value set under the number, proved for all histories. False for a reused number (new_key_stale). |
| C190 | Destructors at the end of a thread | partial | Proved for destructors that set values of keys in use. False for destructors that make or delete keys (destructor_locks_hangs) and after a number is reused (destructor_stale). |
| C191 | A thread's memory is not used after it is freed | partial | Proved for all interleavings in which the thread does not detach itself before its creation has returned. False otherwise (self_detach_early). |
| C192 | A detached thread's memory is freed | partial | Proved if the detaching was complete while the function of the thread was running. False otherwise: detach_after_end_leaks, detached_race_leaks, create_failure_leaks. |
| C193 | Attributes of threads read back | proved |  |
| C194 | Attributes of mutexes read back | partial | Types, sharings, ceilings below 2^27 proved. False for protocols (protocols_refused, protocol_spoils) and negative ceilings. |
| C195 | Waiting with a time limit | partial | Locks proved. Conditions proved for waits shorter than 2^32-1 ms; false for longer ones (cond_early, cond_forever) and for limits before 1970. |
| C196 | Reading a directory on Windows | proved |  |
| C197 | The search pattern of a directory on Windows | partial | Proved if the path still fits at the second call. False otherwise (pattern_grown). |
| C198 | Watching a directory watches all directories below | partial | Proved for trees whose paths are shorter than the buffer. False otherwise (full_path_never_ends). |
| C199 | Reallocating with an alignment | proved |  |
| C200 | Lists of spans with free blocks | proved |  |
| C201 | The memory of heaps is given back at the end | partial | Proved if the allocator is not started again before the later frees. False otherwise (late_after_restart). |
| C202 | events_now does not run backwards | partial | Proved on Linux while the monotonic clock works. False on Windows from 2^63/10^9 counts on (now_windows_overflows). |
| C203 | The clock of timers and delays is the time of day | partial | Proved on Linux; on Windows until 2038, false afterwards (nsec_windows_2038). |
| C204 | An actor is called soon after it is due | partial | Proved: lateness is bounded by the number of actors before it times the length of a round. False as stated: the wait does not look at the actors (actors_one_per_wait, negative_wait_stalls). |
| C205 | A loop with actors ends when all have been called | proved | For actors whose callbacks set no further ones; the clock goes on. |
| C206 | A loop is running while something is registered with it | partial | Proved while no loop of the thread has been destroyed. False for the result with signals (signals_not_counted) and after destroying another loop (destroy_stops_others). |
| C207 | waitpid on Windows names the child that ended | partial | Proved for the status. False for the value returned (never_the_pid, child_gives_own_id) and for processes that are no children (strangers_are_waited_for). |
| C208 | Asking whether a child has ended uses up nothing | partial | Proved for calls that report or fail. False while the process runs (polling_leaks). |
| C209 | wait on Windows returns when any child has ended | partial | Proved for ECHILD and when all children end. False with several children (wait_first_child_only). |
| C210 | Watching directories on Windows uses up nothing | partial | Proved for the handle of a single directory. False for the descriptors (watching_uses_up_table) and for the handles of several directories (watching_leaves_handles). |
| C211 | Closing a directory monitor on Windows leaves other input and output alone | partial | Proved for monitors to which a directory was added. False for the others (idle_close_closes_port). |
| C212 | Opening and closing a file on Windows uses up nothing | partial | Proved for the table and the handle. False for the event objects (same theorem: one more after each round). |
| C213 | At the end of a thread on 32 bit Windows each thread-local value goes once to the destructor of its key | partial | Proved for the allocator's copy of the code while no key is freed. False when keys are freed (freed_key_destroys_twice) and for the library's own copy (library_destroys_nothing). |
| C214 | Keys of thread-local storage can be made and freed any number of times | partial | Proved for keys without a destructor. False for keys with one (keys_run_out). |
| C215 | A task can use as much stack as was asked for without its own record changing | partial | Proved: the stack is inside the block, and a task that uses correspondingly less leaves its record alone. False as stated, for every size (ucontext_overlaps, sjlj_overlaps). |
| C216 | The check of the stack tells exactly when too little is left | partial | Proved for n from 0 to 2^31 - 257. False above (check_overflows); check_negative shows what negative numbers do. |
| C217 | Datagrams can be received in any task | partial | Proved for tasks with a stack large enough, the main task among them. False for the tasks of all other kinds (udp_recv_destroys). |
| C218 | Several threads can make tasks at the same time | partial | Proved when no two threads make tasks at once. False otherwise, in three ways (the two_threads theorems), for all pairs of threads. |
| C219 | Memory the library frees can be used again | partial | Proved where long is as wide as a pointer. False on 64 bit Windows (windows_frees_nothing, windows_memory_grows). |
| C220 | Formatted text is returned and freed with the task | partial | Proved: non-empty text is returned. False: empty text (printf_empty), and freeing (printf_foreign), for every address and memory. |
| C221 | TLS servers and clients use the name they are given | partial | Proved for hosts which are not a piece of the list. False for those that are (name_replaced); address_replaced_iff says exactly which addresses. |
| C222 | A failed tls_bind or tls_dial leaves nothing open | partial | Proved for success and the other failures. False if certificates cannot be read (bind_leaves_open, dial_leaves_open) or memory runs out (no_configuration_ub). |
| C223 | Tasks and their deferred calls work at whatever address they are | partial | Proved for addresses between 2^29 and half of the address space. False elsewhere (upper_half_32, lowest_part). |
| C224 | A parsed URI is freed completely | partial | Proved for known schemes. False for others (unknown_scheme_leaks) and for rejected texts (rejected_leaks). |
| C225 | Threads making pseudo descriptors at the same time get different ones | partial | False of the code: record locks belong to the process, so acquire_lock keeps no thread out; for every state and two calls that would get the same entry alone there is a schedule in which both get it.  Proved: entries are distinct while no two threads are between choosing and marking, and under every schedule if every call is made for a number of its own within the table. |
| C226 | A program started on Windows has the environment it was given | partial | False of the code for the documented form without a semicolon at the end: with an odd number of bytes the block has no terminating empty string and is read past its end.  Exact with a semicolon after every assignment, or with an even number of bytes. |
| C227 | A program started on Windows is the one named and gets the arguments it was given | partial | False of the code for names and arguments that are not single words.  Proved for all arguments without quotation marks: each arrives cut into its words behind the words of the name. |
| C228 | Waiting for a process on Windows reports its own end and gives back what it used | partial | False of the code: a second wait uses the closed handle and may take another process; table entries are never given back, so that the 256th process is undefined behaviour.  Proved while no end is waited for twice. |
| C229 | Descriptors of named pipes on Windows are independent | partial | False of the code: a second open of a pipe fails and closes the handle of the first (second_open_closes_first); after closing, open of the name closes whatever has the handle number now (reopen_closes_other). Proved for histories without these. |
| C230 | What a job of the thread pool defers is called when the job ends | partial | False of the code: defer in a job goes to the list of the record for no task, which nothing empties (pool_defers_never_run); the exact condition under which a pool thread comes through is pool_runs_iff. |
| C231 | What a program defers outside of tasks is called at the end of the process | partial | Proved for programs that do not use the event library and do not call exit_scope; for others exactly what is called is given. False otherwise (exit_forgets_defers, after_exit_scope_ub, exit_elsewhere, exit_by_other). |
| C232 | Signals that arrive at the same time are each delivered | partial | False of the code: a signal that arrives in another thread between installing the handler and storing the callback is lost (lost_while_adding); a second signal during a handler ends the process (two_signals_end_the_process, for all threads, signals and masks), and adding signals in two threads at once mixes their masks (adding_mixes_masks). Proved: in every schedule no arrival is delivered twice or as another signal, and all are delivered if the handlers return; signals one after the other are all delivered in order and leave the masks alone. |
| C233 | Event callbacks may yield and wait without disturbing tasks | partial | False of the code for callbacks that use functions for tasks: yield, delay and async_wait in a callback always break the scheduler (callback_yield_breaks, callback_wait_breaks: for every good state, every task and every continuation). Proved for all other callbacks. |
| C234 | What a callback defers is called when the callback ends | partial | False of the code: what a callback defers is called when the task run next ends (callback_defer_waits, for every history). Proved: all that was deferred in the rounds of a task is called when it ends, the last first. |
| C235 | An atomic operation touches its own object only (Microsoft's compiler) | partial | True for objects of the size the operation was written for; false of the code for smaller objects, shown for every address and every memory. The library itself only uses the plain operations on size_t objects (src/events_internal.h 152, 166, 277-286). |
| C236 | The key file and the certificate file belong together | partial | What true means is proved; that a failed export leaves the files alone, and that the given key is used, are false of the code and refuted for all states. |
| C237 | Making keys and certificates frees every object once | partial | False of the code in the two cases that are shown; the behaviour of EVP_PKEY_keygen on failure is a parameter of the model. |
| C238 | The line printed after an OpenSSL failure shows that failure | partial | False of the code: the second error in the queue is printed, not the first. |
| C239 | The functions given for the end of the program are called once | partial | The half about the end of the program is proved in full; the half about Ctrl-C is false of the code (got_ctrl_c is not cleared when the exception is caught): old_ctrl_c_counts and ctrl_twice are the negations, ctrl_once_partial is what holds. |
| C240 | An uncaught exception ends the program in good order | partial | False of the code: got_signal is never cleared (ex_flags_reset has no caller), and ex_throw during unwinding ends the program before the exception is written down.  The partial theorems exclude just these cases. |
| C241 | Errors of sockets on Windows mean what they mean elsewhere | partial | False of the code for the limits and three other codes (limit_never_reported, other_errno); proved for all other codes. |
| C242 | The text of a certificate is just that | partial | False of the code: str_dup needs a NUL that the memory BIO does not have (garbage_follows, reads_beyond); exact if the next byte happens to be zero. |
| C243 | A named pipe is opened by the name it was made with | partial | False of the code after a failed mkfifo, with a full table and for long names (failed_mkfifo_hides, full_table_opens_other, long_names_clash); proved for any number of short names with room in the table. |
| C244 | A secure connection stays secure while others are closed | partial | False of the code with several threads: the field is emptied after the descriptor was closed, so a connection accepted under the number in between goes on in clear text or through a freed object (continues_in_clear_text, freed_twice); proved for every program in one thread and for every interleaving without such a reuse. |
| C245 | The handler of a connection touches only its own connection | partial | False of the code for handler functions that close the connection themselves and go on (closes_other, writes_to_other) and for descriptor 0 (zero_stays_open); proved for all schedules of functions that do not close. |
| C246 | On BSD and macOS the end of watching leaves the loop working | partial | False of the code: the monitor has the descriptor of the loop itself, which is closed with it (stop_ends_the_loop, last_removed_ends_the_loop, destroy_closes_file), and only every second directory is closed (stop_closes_every_second); proved while some directory is watched. |
| C247 | Reading directory changes without a loop on BSD | partial | False of the code: the read ignores the length of the buffer, so for every length there is a set of directories whose changes overrun it, and of several changes only the first is seen. Proved: nothing is overrun or lost by the read when the buffer has room for all watched directories, and a single change is reported. |
| C248 | Signals on Windows are each delivered once | partial | False of the code: in every schedule a signal that arrives again before its handler has installed itself again ends the process, and a signal that arrives during a callback ends it with exit(1) or is delivered, depending on which thread goes on first. Proved for all schedules: no arrival is delivered twice, handlers that ended have delivered, callbacks exclude each other; signals one after the other are all delivered. |
| C249 | try, throw and catch mean the same on Windows | partial | False of the code: an exception thrown in a catch block is lost (it is stored in the record of the inner statement), catch(E) never catches an exception of the processor or the system, and codes that are not in the table are named as access violations. Proved: all programs in which no catch block is left by an exception and only throw throws do what is usual; catch_any catches the codes of the table under their names. |
| C250 | The kind of a descriptor | partial | Proved on unix for all modes. False on Windows: the address of the parameter is used as handle, so every descriptor is of unknown kind; and with the right handle files with other attributes than the three tested would be unknown too. |
| C251 | A thread bound to a set of processors runs on just that set | partial | Windows: exact for processors below 64. False beyond, and on macOS, where only the smallest processor counts and failures are hidden. Linux and BSD use the C library. |
| C252 | Several watched directories on Windows are told apart | partial | False of the code with two directories: one buffer and one name for all. Holds with one directory; the records hold when every change is handled before the next. |
| C253 | Making descriptors on Windows does not disturb operations that go on | partial | False of the code when the table grows during an operation, or when there is no memory. Holds without growth; growth is harmless when no operation goes on. |
| C254 | A turn of the loop on Windows passes on what ended, within its wait | partial | False of the code: a signal costs the next end of an operation; the wait has no bound; seconds are taken for milliseconds. |
| C255 | Emulated thread-local variables are local to threads | partial | False of the code when two threads make the first call at the same time; holds for all schedules after a first call that was alone. |
| C256 | Ending the library on Windows closes the watched directories and nothing else | partial | False of the code: addresses are taken for descriptors, and the table is read before it is made and after it is freed. Proved: which numbers are closed, and the cases that are right. |
| C257 | async_fprintf stores the text and reports how much | partial | False of the code when the disk is full or the file does not open; holds otherwise. |
| C258 | A task that looks up a host gets that host's address | partial | False of the code when lookups of several tasks overlap, and for unknown hosts; holds for all schedules without the named overlaps. |
| C259 | Callbacks of pipes, files, processes and directories on Windows run in the thread of their loop, while registered | partial | False of the code with two loops, after removal, and for a second removal; proved for one loop, and that nothing is passed on twice in any schedule. |
| C260 | A program started on Windows has the standard handles it was given and no others | partial | Standard handles proved for programs that are not detached; exactly which handles a program holds is given for every history (holds_iff). False of the code: detached programs (detached_ignores) and handles given to earlier programs (holds_of_others). |
| C261 | Programs started by several threads on Windows are the ones they asked for | partial | Proved if no two threads are inside exec at the same time; false otherwise, for every state and every two programs (other_program, other_program_own_arguments): the name is in one static buffer. |
| C262 | Texts returned by str_itoa and ex_strerror last until the next call | partial | Proved: the text stays while no task asks for another and no guard section is left; no undefined behaviour if one task only uses guard sections and a scope was made. False otherwise (other_task_overwrites, one_buffer, gone_after_guard, gone_after_guard_of_other, strerror_into_freed; itoa_ok_iff says when str_itoa is defined). |
| C263 | The names of the machine are complete and right | partial | False of the code for long names (long_host, long_uname), changed names (renamed) and several threads (part_seen, sysname_empty). names_partial, fits_linux, beginning_seen and whole_seen_partial state what holds. |
| C264 | Adding a socket on Windows finds the socket under all layered providers | partial | found_iff and error_iff say exactly what is returned. Returning always is false of the code (never); returns_partial states when it holds. |
| C265 | socket_is_eof tells whether a connection has ended | partial | False of the code (empty_message, waits_iff, old_error_hides, old_error_tells); answer_partial states when the answer is right. What tls_read of no bytes answers is left open. |
| C266 | uname on Windows fills in all fields | partial | False of the code (version_left, ends_iff, intel_name); written_partial and description_given state what holds. |
| C267 | Blocking calls are spread evenly over the pool | partial | False of the code for calls of several threads at the same time (one_worker, not_even). even_partial and turn: calls one after the other. The counter is a natural number; all workers are running. |
| C268 | Data attached to a descriptor belongs to the open file | partial | False of the code (other_thread, old_data, behind_iff); attached_partial states when it holds. |
| C269 | epoll on Windows is set up before its first use, once | proved | InitOnceExecuteOnce is taken to let one thread in at a time and the next one in after a failure. again: Winsock is started once for every failed attempt. |
| C270 | epoll functions on Windows leave the error codes of Linux | partial | False of the code (closed_succeeds, not_socket, create_refused for flags). ctl_partial: the code is right whenever epoll_ctl fails; succeeds_iff with open handles. |
| C271 | Connections trust the authorities the program has chosen | partial | False of the code (late_choice, second_choice, empty_choice, long_choice). files_first says exactly which file is trusted; chosen_partial and default_partial state when it is the one meant. |
| C272 | rpposix_memalign and rpaligned_calloc keep their contracts | partial | False of the code (posix_small, posix_large, posix_wraps, calloc_aligned_wraps, calloc_overrun); posix_partial and calloc_aligned_partial state what holds. |
| C273 | Making a descriptor blocking or nonblocking changes only that | partial | False of the code for descriptors sharing an open file (shared) and for flags changed meanwhile (lost); the other theorems state what holds. The Windows branch is not modelled. |
| C274 | Programs started with spawn get ordinary streams, and a failed spawn leaves nothing open | partial | False of the code (child_nonblocking, child_told_again, errors_inherited, failed_leaves); fails_iff_partial states what holds. |
| C275 | A spawned program finds the end of its input when the parent closes it | partial | eof_iff says exactly when the end is found. False of the code with overlapping programs (no_eof, waits_for_other) and for pipes of errors (errs_left); eof_partial states what holds. |

## Axioms each theorem depends on

Output of `#print axioms` for every theorem named in `MANIFEST.json`.

**none**: `Io.Write.read_first_answer`, `Life.init_no_table_ub`, `Life.init_no_port_ub`, `Wepoll.Timeout.null_waits_forever`, `Pth.Timed.cond_forever`, `Win.Dirent.expect_reads`, `Win.TlsKeys.plain_keys_partial`, `Rp.printf_empty`, `Win.ExecWait.wait_releases_no_entry`, `Win.WsaErr.other_errno`

**propext**: `Uri.port_with_junk_accepted`, `Deque.take_race_duplicates`, `Tasks.plain_id_collides`, `Tasks.concurrent_create_ub`, `Tasks.concurrent_finish_ub`, `Tasks.Generator.alternating_delivers`, `Tasks.Generator.all_delivered`, `Tasks.Generator.end_is_ub`, `Tasks.Generator.last_value_lost`, `Future.Promise.getters_general_partial`, `Future.Promise.get_own_outcome_partial`, `Future.Promise.getters_value`, `Future.Promise.isolated_of_injective`, `Future.Promise.get_reports_other_exception`, `Future.Promise.get_loses_exception`, `Future.Promise.wait_swallows_exception`, `Tasks.plain_task_sees_other_cancel`, `Tasks.plain_task_cancel_ub`, `Str.str_cat_argv_none_ub`, `Io.Ip.parseip_accepts_others`, `Io.Ip.parseip_empty_ub`, `Str.scheme_type_known_partial`, `Except.Tasks.exception_crosses_tasks`, `Except.Tasks.overlapping_tries_leave_dead_handler`, `Fs.readfile_short_cut`, `Fs.second_close_refused`, `Proc.detached_wait_returns_at_once`, `Arrays.typed_append_to_tuple`, `Udp.udp_empty_is_failure`, `Udp.udp_sendto_without_destination`, `Tls.tls_writer_zero_reads_beyond`, `Tasks.Start.create_future_result`, `Future.Value.pointer_result_ub`, `Sock.bind_v6_never`, `Sock.bind_reuse_garbage`, `Sock.socket_listen_leak`, `Life.init_ready_partial`, `Life.init_after_failure`, `Life.deinit_clean_partial`, `Rp.aligned_not_power`, `Rp.Threads.main_thread_shares_heap`, `Switch.task_done_partial`, `Win.pread_partial`, `Win.pread_failure_moves`, `Win.pread_not_atomic`, `Win.sendfile_null`, `Win.one_change_partial`, `Win.pump_partial`, `Win.pump_overwrites`, `Win.socketpair_stranger`, `Win.socketpair_closes_twice`, `Kq.Update.other_is_modified`, `Tasks.Count.stop_drops`, `Pth.Cancel.not_cancelled_lives`, `Win.Dirent.pattern_grown`, `Sched.Once.destroy_stops_others`, `Switch.SigTasks.one_thread_partial`, `Switch.SigTasks.two_threads_lose_handler`, `Rp.printf_returns_partial`, `Uri.parseEx_parseUri`, `Uri.unknown_scheme_leaks`, `Uri.rejected_leaks`, `Win.ExecWait.second_wait_fails`, `Future.Defer.after_exit_scope_ub`, `Io.SigRace.not_interrupted_partial`, `Tls.Keys.pkey_write_says`, `Tls.Errors.silent_without_error`, `Tls.Errors.two_errors_partial`, `Tls.Errors.one_error_prints_zero`, `Tls.Errors.cause_not_printed`, `Tls.Errors.stale_error_printed`, `Win.WsaErr.same_errno_partial`, `Win.WsaErr.again_iff`, `Win.WsaErr.first_result`, `Win.WsaErr.limit_never_reported`, `Win.WsaErr.reported_at_once`, `Tls.Text.reads_beyond`, `Tls.Text.no_text`, `Io.Handlers.zero_stays_open`, `Io.FdType.unix_not_open`, `Io.FdType.windows_always_unknown`, `Io.FdType.tests_right_partial`, `Io.FdType.other_attributes_unknown`, `Future.Affinity.mac_empty_mask`, `Win.Dispatch.nothing_lost_partial`, `Win.Shutdown.addresses_confused`, `Win.Shutdown.close_others_partial`, `Win.Loops.one_loop_partial`, `Win.Loops.not_after_removal_partial`, `Win.Loops.never_added_partial`, `Win.ExecRace.own_program_partial`, `Except.Scratch.one_buffer`, `Tls.Machine.renamed`, `Tls.Eof.plain_keeps`, `Tls.Eof.empty_message`, `Tls.Eof.old_error_hides`, `Tls.Eof.old_error_tells`, `Fd.UserData.attached_partial`, `Fd.UserData.other_thread`, `Wepoll.Init.again`, `Wepoll.Init.fails_own`, `Wepoll.Errors.ctl_partial`, `Wepoll.Errors.succeeds_iff`, `Wepoll.Errors.closed_succeeds`, `Wepoll.Errors.wait_errors`, `Wepoll.Errors.create_refused`, `Rp.posix_result`, `Rp.posix_small`

**Quot.sound, propext**: `Str.mem_subcount_empty`, `Str.str_pad_short`, `Sort.memsort_permutes`, `Str.str_itoa_min_ub`, `Uri.components_have_no_control`, `Sched.delay_value_partial`, `Sched.delay_value_wrong`, `Sched.actor_deadline_partial`, `Sched.actor_deadline_overflow`, `Wheel.delete_other_in_callback_aborts`, `Wheel.rearm_other_in_callback_wrong`, `Wheel.add_again_keeps_old_timeout`, `Fd.no_call_after_del`, `Fd.revents_exact_partial`, `Fd.hangup_reported_as_read_and_timeout`, `Fd.error_only_never_delivered`, `Fd.narrowed_interest_still_called`, `Fd.descriptor_delete_in_handler_deletes_signal`, `Fd.descriptor_survives_delete_in_handler`, `Fd.add_out_of_range`, `Tasks.spec_result_final`, `Tasks.Generator.values_in_order_partial`, `Tasks.Generator.defined_while_alive`, `Tasks.Groups.tasks_wait_collects_partial`, `Tasks.Groups.tasks_wait_deletes_once`, `Sched.requeue_head_starves`, `Tasks.Groups.waitgroup_partition_partial`, `Tasks.Groups.full_group_suffices`, `Tasks.Groups.short_group_ub`, `Tasks.Groups.pool_wait_never_returns`, `Tasks.Groups.placement_cyclic_partial`, `Future.Promise.recovered_never_done`, `Future.Promise.collected_never_done`, `Future.Wait.queue_wait_once`, `Future.Wait.queue_wait_waits`, `Except.Tasks.task_defers_lifo_once_partial`, `Except.Protect.protected_released_partial`, `Except.Protect.null_pointer_stops_release`, `Except.Protect.unprotect_drops_newer`, `Io.Alloc.set_allocator_all_or_nothing`, `Io.Alloc.errno_after_calls`, `Io.Getopt.help_word_hides_flag`, `Io.Getopt.last_flag_has_null_value`, `Io.Getopt.value_cut_at_second_equals`, `Io.Write.write_completes`, `Io.Pseudo.new_index_unused`, `Io.Pseudo.get_fd_maps`, `Io.Pseudo.new_fails_only_when_full`, `Io.Pseudo.table_grows`, `Io.Pseudo.free_does_not_release`, `Io.Pseudo.real_descriptor_redirected`, `Io.Spin.mutual_exclusion`, `Io.Env.addenv_appends_partial`, `Io.Env.addenv_long_pair_ub`, `Io.Env.addenv_block_not_terminated`, `Sched.Loop.resume_new_bypasses`, `Tasks.cancel_keeps_results`, `Fd.signal_calls`, `Fd.signal_self_delete_partial`, `Fd.signal_delete_outside_handler_aborts`, `Fd.signal_replaced_counts_twice`, `Except.Tasks.exception_stays_in_task_partial`, `Kq.eof_not_reported`, `Fs.failed_touch_is_true`, `Watch.next_single_partial`, `Watch.next_always_ends`, `Watch.next_never_following`, `Watch.Deliver.delivered_when_readable_partial`, `Watch.Deliver.records_never_delivered`, `Watch.Deliver.registration_not_passed_on`, `Watch.Tasks.directory_removal_keeps_running`, `Watch.Tasks.failed_watch_ub`, `Proc.spawned_streams_partial`, `Proc.spawned_keeps_other_pipes`, `Proc.wait_reports_end`, `Proc.wait_zero_polls`, `Proc.exit_code_unambiguous`, `Proc.wait_ignores_timeout`, `Proc.wait_closes_own_partial`, `Proc.wait_closes_descriptor_numbered_as_process`, `Proc.handle_is_fresh`, `Proc.no_event_descriptor_ub`, `Proc.failed_start_never_released`, `Proc.Spawn.output_is_prefix`, `Proc.Spawn.output_complete_partial`, `Proc.Spawn.output_lost_at_exit`, `Proc.Spawn.exit_at_most_once`, `Proc.Spawn.exit_status_reported`, `Proc.Spawn.term_signal_is_status`, `Proc.Spawn.failed_launch_exits_zero`, `Proc.Spawn.unregistered_exit_never_reported`, `Proc.Finish.finished_stays_partial`, `Proc.Finish.finished_is_revived`, `Proc.Time.deadline_exact`, `Proc.Time.join_forever`, `Proc.Time.sleep_exact_partial`, `Proc.Time.sleep_cut_short`, `Str.str_trim_beyond_ub`, `Str.str_case_laws`, `Str.has_either_actual`, `Str.has_either_complete_partial`, `Str.has_either_misses_second`, `Udp.deferred_memory_freed_partial`, `Udp.deferred_short_memory_ub`, `Udp.udp_sendto_destination_partial`, `Udp.udp_sendto_v6_fails`, `Io.Host.host_plain_partial`, `Io.Host.host_not_autofree_null`, `Io.Host.uds_path_partial`, `Io.Host.uds_long_path_differs`, `Tls.tls_reader_outcome_partial`, `Tls.tls_reader_failure_reported`, `Tls.tls_reader_hangup_fails`, `Tls.tls_writer_zero_sends_string`, `Tls.tls_writer_short`, `Tls.tls_accept_failed_ub`, `Tls.handshake_failure`, `Tasks.Start.create_pool_reports_partial`, `Tasks.Start.create_pool_retry_false_success`, `Future.Value.pointer_result_partial`, `Future.Value.fwrite_count_partial`, `Future.Value.fwrite_flush_failure_hidden`, `Future.Value.fwrite_large_wrong`, `Sock.socket_all_or_nothing_partial`, `Sock.socket_v6_address_cut`, `Sock.Kind.uds_freed_ub`, `Sock.tcp_timeout_long_ub`, `Sock.inet_pton_last`, `Sock.memalign_inside`, `Except.Signals.default_restores_partial`, `Except.Signals.default_keeps_sigpipe`, `Future.Reuse.queue_get_early_ub`, `Except.Trying.trying_value_partial`, `Rp.size_class_fits`, `Rp.calloc_wraps`, `Rp.usable_exact`, `Rp.free_whole_block`, `Rp.aligned_wraps`, `Rp.deferred_block_not_reused`, `Wepoll.Timeout.long_times_overflow`, `Wepoll.Timeout.limits_add_up`, `Wepoll.Timeout.never_late`, `Wepoll.Timeout.zero_polls_once`, `Wepoll.Timeout.negative_waits_forever`, `Wepoll.Timeout.result_is_events`, `Wepoll.Timeout.timeout_is_zero_partial`, `Wepoll.Timeout.timeout_reported_as_error`, `Switch.stack_room`, `Switch.task_done_misaligned`, `Win.memmem_first`, `Win.pwrite_partial`, `Win.sendfile_offset_stays`, `Win.sendfile_short_write_loses`, `Win.async_open_partial`, `Win.async_open_cannot_read`, `Win.async_open_rdonly_opens`, `Win.async_open_erases`, `Win.async_open_trunc_fails`, `Win.async_open_excl_truncates`, `Win.route_partial`, `Win.new_fd_free`, `Win.route_outside`, `Win.route_write_noloop`, `Win.new_fd_stdout`, `Win.close_pipe_stays`, `Win.inotify_next_wrong`, `Win.pump_lengths`, `Win.socketpair_connected`, `Win.os_pipe_overruns`, `Kq.Update.removed_partial`, `Kq.Update.removed_last_fresh_partial`, `Kq.Update.removed_last_missed`, `Kq.Update.added_last_missed`, `Kq.Update.added_then_twice`, `Tasks.Count.bare_wait_never_right`, `Pth.Once.once_exactly`, `Pth.Once.once_no_restart`, `Pth.Once.once_exit_hangs`, `Pth.Cancel.cancel_once_partial`, `Pth.Cancel.cancel_repeats`, `Pth.Cancel.exit_skips_handlers`, `Pth.Cancel.disabled_safe_partial`, `Pth.Cancel.disabled_async_dies`, `Pth.Keys.create_after_failure_faults`, `Pth.Life.join_returns`, `Pth.Life.self_detach_early`, `Pth.Life.leak_stays`, `Pth.Life.create_failure_leaks`, `Pth.Attr.protocols_refused`, `Pth.Attr.ceiling_negative`, `Pth.Timed.cond_early`, `Pth.Timed.mutex_timed`, `Pth.Timed.rw_timed`, `Win.Dirent.stream`, `Win.Dirent.pattern_partial`, `Watch.Walk.full_path_never_ends`, `Rp.Finalize.late_after_restart`, `Io.Clock.now_mixes`, `Io.Clock.now_windows_partial`, `Io.Clock.now_windows_overflows`, `Io.Clock.nsec_exact`, `Io.Clock.nsec_windows_partial`, `Io.Clock.nsec_windows_2038`, `Win.Waitpid.status_right_partial`, `Win.Waitpid.never_the_pid`, `Win.Waitpid.child_gives_own_id`, `Win.Waitpid.handles_kept_partial`, `Win.Waitpid.wait_returns_partial`, `Win.Monitor.open_close_leaves_event_partial`, `Win.Monitor.open_close_goes_on`, `Win.TlsKeys.destructors_partial`, `Win.TlsKeys.freed_key_destroys_twice`, `Win.TlsKeys.library_destroys_nothing`, `Win.TlsKeys.keys_run_out`, `Switch.Stack.stack_in_block_partial`, `Switch.Stack.check_right_partial`, `Switch.Stack.check_overflows`, `Switch.Stack.check_negative`, `Switch.Frames.udp_recv_destroys`, `Switch.SigTasks.one_at_a_time_partial`, `Rp.printf_foreign`, `Tls.Bind.bind_ok_partial`, `Tls.Bind.dial_ok_partial`, `Tls.Bind.bind_leaves_open`, `Tls.Bind.dial_leaves_open`, `Tls.Bind.no_configuration_ub`, `Tasks.Place.good_places_partial`, `Io.PseudoRace.entries_distinct_partial`, `Io.PseudoRace.old_name_gone_partial`, `Io.PseudoRace.lock_waits_for_no_thread`, `Future.Defer.exit_runs_partial`, `Future.Defer.exit_runs_all_partial`, `Future.Defer.exit_forgets_defers`, `Future.Defer.exit_elsewhere`, `Future.Defer.exit_by_other`, `Sched.Callback.quiet_callbacks_partial`, `Sched.Callback.callback_yield_breaks`, `Sched.Callback.callback_wait_breaks`, `Sched.Callback.callback_yield_resumes_last`, `Sched.Callback.callback_yield_after_end`, `Tls.Keys.export_makes_pair`, `Tls.Keys.failed_export_partial`, `Tls.Keys.export_ignores_given`, `Tls.Errors.printed_in_order`, `Except.Terminate.terminate_once`, `Except.Terminate.old_ctrl_c_counts`, `Except.Terminate.ctrl_twice`, `Except.Terminate.normal_exit_partial`, `Except.Terminate.caught_signal_loses_output`, `Except.Terminate.names_exception_partial`, `Except.Terminate.unwinding_unnamed`, `Win.WsaErr.busy_then_result_partial`, `Io.Handlers.own_connection_partial`, `Io.Handlers.closes_itself_partial`, `Kq.Monitor.stop_ends_the_loop`, `Kq.Monitor.last_removed_ends_the_loop`, `Kq.Monitor.destroy_closes_file`, `Kq.Monitor.stop_closes_every_second`, `Win.Signals.one_by_one_partial`, `Win.Signals.second_during_callback`, `Io.FdType.unix_kind_partial`, `Future.Affinity.far_processors`, `Future.Affinity.mac_only_first_partial`, `Win.Watches.next_call`, `Win.Watches.calm_records_partial`, `Win.Watches.single_directory_partial`, `Win.Watches.two_directories_mixed`, `Win.Watches.wrong_directory_told`, `Win.Grow.no_growth_partial`, `Win.Grow.growth_fails`, `Win.Dispatch.arrived_passed_partial`, `Win.Dispatch.signal_loses`, `Win.Dispatch.flag_stays`, `Win.Dispatch.wait_unbounded`, `Win.Dispatch.no_wait_partial`, `Win.Dispatch.wait_thousandth`, `Win.Shutdown.no_directories_partial`, `Win.Shutdown.closes_addresses`, `Win.Shutdown.close_outside`, `Io.Fprintf.stored_partial`, `Io.HostByName.own_address_partial`, `Io.HostByName.other_host`, `Io.HostByName.other_text`, `Io.HostByName.not_found`, `Win.Loops.passed_once_partial`, `Win.Loops.other_thread`, `Win.StdHandles.detached_ignores`, `Win.ExecRace.named_program`, `Except.Scratch.text_kept_partial`, `Except.Scratch.no_fault_partial`, `Except.Scratch.other_task_overwrites`, `Tls.Machine.names_partial`, `Tls.Machine.fits_linux`, `Tls.Machine.long_host`, `Tls.Machine.long_uname`, `Tls.Machine.failed_uname`, `Tls.Machine.sysname_empty`, `Wepoll.BaseSocket.found_iff`, `Wepoll.BaseSocket.error_iff`, `Wepoll.BaseSocket.never`, `Tls.Eof.answer_partial`, `Tls.Eof.waits_iff`, `Fd.UserData.old_data`, `Wepoll.Init.ready`, `Wepoll.Init.at_most`, `Tls.Trust.chosen_partial`, `Tls.Trust.default_partial`, `Tls.Trust.late_choice`, `Tls.Trust.second_choice`, `Tls.Trust.long_choice`, `Rp.posix_large`, `Rp.posix_wraps`, `Rp.calloc_aligned_wraps`, `Rp.calloc_overrun`, `Fd.Blocking.not_open`, `Fd.Blocking.others_partial`, `Proc.SpawnPipes.errors_inherited`, `Proc.SpawnPipes.failed_leaves`, `Proc.SpawnPipes.fails_iff_partial`, `Proc.InputEnd.eof_iff`, `Proc.InputEnd.eof_partial`, `Proc.InputEnd.no_eof`, `Proc.InputEnd.errs_left`

**Classical.choice, Quot.sound, propext**: `Arrays.array_history_inplace_partial`, `Arrays.array_history_within_capacity_partial`, `Arrays.array_history_moving_ub`, `Arrays.append_after_arrays`, `Arrays.append_after_copy_partial`, `Arrays.append_after_rangeing_partial`, `Arrays.append_after_range`, `Arrays.append_after_rangeChar`, `Arrays.append_after_empty_copy_ub`, `Arrays.append_after_empty_rangeing_ub`, `Arrays.append_after_copy_moving`, `Arrays.tuple_immutable`, `Arrays.copy_equal_partial`, `Arrays.history_independent`, `Arrays.copy_long_moving_ub`, `Arrays.rangeing_contents_partial`, `Arrays.rangeing_zero_step_diverges`, `Arrays.range_contents`, `Arrays.rangeChar_contents`, `Str.base64_round_trip`, `Str.str_encode64_exact_partial`, `Str.str_encode64_overflow`, `Str.str_decode64_spec`, `Str.mempos_first_occurrence`, `Str.str_pos_first_occurrence`, `Str.str_has_iff_infix`, `Str.mempos_truncates`, `Str.mem_subcount_counts`, `Str.str_subcount_counts`, `Str.split_exists_unique`, `Str.str_split_pieces`, `Str.str_split_round_trip`, `Str.mem_split_pieces`, `Str.str_explode_pieces_partial`, `Str.str_explode_no_delim_empty`, `Str.str_swap_replaces`, `Str.str_repeat_spec`, `Str.str_pad_spec`, `Str.str_lcpy_spec`, `Str.str_lcpy_keeps_tail`, `Str.str_case_equal_iff`, `Str.str_is_case_iff`, `Str.str_is_case_equivalence`, `Str.binary_strcasecmp_zero_iff`, `Sort.memsort_sorted`, `Str.str_itoa_decimal_partial`, `Str.str_itoa_actual`, `Str.str_itoa_negative_wrong`, `Str.str_itoa_large_wrong`, `Str.ItoaBase.itoa_base`, `Str.ItoaBase.itoa_base_unknown`, `Str.ItoaBase.str_itoa_s390_partial`, `Str.ItoaBase.str_itoa_s390_wide_wrong`, `Str.trim_core_partial`, `Str.trim_blank_ub`, `Uri.parse_components_partial`, `Uri.parse_single_label_refused`, `Uri.port_in_range_partial`, `Deque.steal_exactly_once_partial`, `Deque.steal_safe_without_growth`, `Deque.steal_after_growth_ub`, `Deque.steal_alone_succeeds`, `Deque.sequential_history_partial`, `Deque.take_last_partial`, `Deque.take_fresh_wrong`, `Deque.push_preserves_contents`, `Sched.run_queue_fifo`, `Sched.sleep_refines_spec`, `Sched.wake_pass_correct`, `Sched.deadline_from_call`, `Sched.delay_long_understated`, `Sched.actor_history_partial`, `Sched.poll_calls_earliest`, `Sched.cleared_actor_fires`, `Sched.stuck_actor_counts`, `Sched.again_then_clear_ub`, `Wheel.timeout_fires_once_partial`, `Wheel.disarmed_never_fires`, `Wheel.wheel_refines_spec`, `Wheel.long_timeout_fires_early`, `Wheel.timeout_after_idle_fires_at_once`, `Wheel.zero_max_timeout_divides_by_zero`, `Wheel.wheel_consistent_partial`, `Wheel.wheel_indices_in_bounds`, `Fd.dispatch_refines_spec`, `Fd.del_unregisters`, `Fd.count_registered_partial`, `Fd.del_unregistered`, `Fd.add_twice_counts_twice`, `Tasks.result_ids_unique_partial`, `Tasks.results_stable_partial`, `Sched.requeue_drops`, `Tasks.Groups.tasks_wait_returns`, `Tasks.Groups.earlier_group_not_waited`, `Tasks.Groups.waitgroup_reserve_dangles`, `Tasks.Groups.pool_wait_ub`, `Tasks.Groups.pool_wait_single`, `Tasks.Groups.placement_fair_partial`, `Tasks.Groups.wrap_breaks_order`, `Future.jobs_fifo_partial`, `Future.jobs_one_producer_partial`, `Future.jobs_all_run_partial`, `Future.full_queue_dangles`, `Future.Wait.queue_wait_returns`, `Except.exceptions_follow_spec_partial`, `Except.nearest_handler`, `Except.uncaught_terminates`, `Except.finally_once_partial`, `Except.catch_if_twice_without_finally`, `Except.handlers_balanced_partial`, `Except.return_in_try_unbalances`, `Except.throw_after_return_jumps_to_dead_frame`, `Except.Guard.deferred_lifo_once_partial`, `Except.Guard.unaccepted_panic_uses_freed_block`, `Except.Guard.accept_with_fence_goes_on`, `Except.Guard.try_in_fenced_guard_unwinds_early`, `Except.Guard.caught_exception_seen_at_normal_end`, `Except.Tasks.defer_goes_to_other_task`, `Except.Protect.equal_pointers_stop_release`, `Except.Protect.unprotect_in_inner_try_releases`, `Io.Getopt.getopt_has_iff_partial`, `Io.Getopt.getopt_value_partial`, `Io.Write.write_exact_prefix`, `Io.Write.write_nothing`, `Io.Addr.dotted_address_partial`, `Io.Addr.host_name_port`, `Io.Addr.bracket_address`, `Io.Addr.digit_first_is_port_one`, `Io.Addr.port_wraps`, `Io.Addr.trailing_text_ignored`, `Io.Addr.octet_spills`, `Io.Pseudo.close_releases_partial`, `Io.Pseudo.close_unassigned_leaks`, `Io.Spin.free_lock_is_taken`, `Io.Env.addenv_2048_wrong`, `Sched.Loop.round_robin_partial`, `Sched.Loop.finished_never_runs_partial`, `Sched.Loop.yielding_is_cyclic`, `Sched.Loop.resume_old_queues`, `Sched.requeue_cuts_queue`, `Tasks.cancel_only_that_id_partial`, `Tasks.cancel_zero_ignored`, `Str.str_cat_concat`, `Str.str_cat_argv_first_call_partial`, `Str.str_cat_argv_later_call`, `Str.str_cat_argv_overflow`, `Io.Ip.parseip_quad_partial`, `Io.Ip.parseip_quad_port_partial`, `Io.Ip.parseip_scheme_partial`, `Io.Ip.parseip_rejects_large`, `Io.Ip.parseip_ignores_rest`, `Io.Ip.parseip_stores_garbage`, `Str.scheme_type_spec`, `Str.scheme_type_accepts_unknown`, `Deque.two_producers_lose_task`, `Fd.addSig_registers`, `Fd.signal_breaks_descriptor`, `Kq.kernel_follows_interest_partial`, `Kq.read_write_never_watched_for_writing`, `Kq.deleted_stays_watched`, `Kq.add_again_loses_others`, `Kq.directory_never_watched`, `Kq.kq_dispatch_refines_spec_partial`, `Kq.called_for_interest_partial`, `Fs.copy_keeps_rest`, `Fs.copy_exact_partial`, `Fs.copy_large_loses_bytes`, `Fs.copy_short_loses_bytes`, `Fs.copy_onto_itself_empties`, `Fs.os_copy_terminates`, `Fs.os_copy_exact`, `Fs.os_copy_failed`, `Fs.os_copy_succeeds`, `Fs.writefile_result`, `Fs.writefile_exact_partial`, `Fs.writefile_keeps_tail`, `Fs.writefile_large_ub`, `Fs.touch_keeps_contents`, `Fs.readfile_terminated`, `Fs.readfile_exact_partial`, `Fs.readfile_large_cut`, `Fs.readfile_large_ub`, `Fs.write_then_read_partial`, `Fs.close_closes_partial`, `Fs.close_refused`, `Watch.handler_reports`, `Watch.self_change_unreported`, `Watch.watch_reports_partial`, `Watch.own_descriptor_collides`, `Watch.second_monitor_misreports`, `Watch.tree_fits_partial`, `Watch.large_tree_ub`, `Watch.close_releases_all_partial`, `Watch.close_releases_every_second`, `Watch.rm_watch_exact`, `Watch.Tasks.cancel_ends_partial`, `Watch.Tasks.cancel_ends_all`, `Proc.arguments_exact_partial`, `Proc.no_argument_with_comma`, `Proc.null_arguments_get_one`, `Proc.environment_exact_partial`, `Proc.null_environment_is_empty`, `Proc.single_assignment_dropped`, `Proc.streams_connected_partial`, `Proc.closed_stream_ends_child`, `Proc.descriptor_zero_ignored`, `Proc.exchanged_streams_collapse`, `Proc.start_safe_partial`, `Proc.many_processes_ub`, `Proc.failed_start_reported_as_success`, `Proc.Spawn.full_pipe_stalls`, `Proc.Time.join_ended_thread`, `Proc.Time.join_keeps_timeout`, `Str.pathinfo_parts_partial`, `Str.pathinfo_root`, `Str.pathinfo_plain_name`, `Str.pathinfo_no_name`, `Str.pathinfo_cuts_argument`, `Str.str_trim_at_exact`, `Str.str_dup_exact`, `Str.str_cpy_unterminated`, `Str.str_cpy_bytes_partial`, `Str.str_case_exact`, `Arrays.typed_items_read_back_partial`, `Arrays.wide_item_exact`, `Arrays.narrow_item_keeps_old_bits`, `Str.has_either_mixes`, `Str.has_either_short_second_ub`, `Udp.deferred_memory_can_call`, `Udp.udp_received_exact`, `Udp.udp_received_whole_partial`, `Udp.udp_long_is_cut`, `Udp.udp_reply_to_sender_partial`, `Udp.udp_reply_goes_astray`, `Udp.udp_ip_of_another`, `Udp.udp_safe_while_tasks_live_partial`, `Udp.udp_message_freed_once`, `Udp.udp_handled_packet_freed_partial`, `Udp.udp_receive_after_handler_ub`, `Udp.udp_waiting_receive_ub`, `Udp.udp_late_message_ub`, `Udp.udp_unread_message_leaks`, `Udp.udp_datagram_calls_function`, `Udp.udp_sendto_after_receive`, `Wait.exclusive_wait_woken_partial`, `Wait.woken_in_direction`, `Wait.second_waiter_strands_first`, `Wait.wait_out_of_range_strands`, `Wait.error_does_not_wake`, `Io.Host.host_with_port_partial`, `Io.Host.host_scheme_partial`, `Io.Host.host_numeric_wild`, `Io.Host.host_not_autofree_ub`, `Io.Host.host_short_keeps_port`, `Io.Host.host_brackets`, `Io.Host.uds_scheme_partial`, `Io.Host.uds_colon_path_cut`, `Io.Host.uds_double_slash_cut`, `Tls.tls_reader_sound`, `Tls.tls_reader_no_abort`, `Tls.tls_writer_exact_partial`, `Tls.tls_accept_outcome_partial`, `Tls.tls_dial_outcome_partial`, `Tls.tls_dial_failure_ub`, `Tasks.Pool.pool_tasks_exactly_once_partial`, `Tasks.Pool.pool_take_drains_partial`, `Tasks.Start.init_pool_roles_partial`, `Tasks.Start.init_pool_twice_ub`, `Tasks.Start.need_pool_no_processor_ub`, `Tasks.Start.create_loop_failure_dangling`, `Tasks.Start.shutdown_all_partial`, `Tasks.Start.shutdown_extra_loop_ub`, `Future.Value.int_result_exact_partial`, `Future.Value.large_result_ub`, `Future.Value.large_result_wrong`, `Sock.bind_all_or_nothing_partial`, `Sock.bind_listen_failure_hidden`, `Sock.connect_all_or_nothing`, `Sock.connect_errno_lost`, `Sock.Kind.uds_known_partial`, `Sock.Kind.uds_stale`, `Sock.tcp_timeout_exact_partial`, `Sock.tcp_timeout_negative`, `Sock.accept_v4_partial`, `Sock.accept_v6_empty`, `Except.Signals.signal_right_exception`, `Except.Signals.signal_caught_partial`, `Except.Signals.signal_lost_after_events`, `Except.Signals.default_undone`, `Except.Signals.events_signal_kept_partial`, `Except.Signals.events_signal_stolen`, `Future.Reuse.queue_get_memory_partial`, `Future.Reuse.promise_single_use_partial`, `Future.Reuse.promise_second_use_ub`, `Future.Reuse.promise_reuse_ub`, `Except.Trying.trying_guard_misuse`, `Rp.malloc_enough_partial`, `Rp.malloc_wraps`, `Rp.calloc_exact_partial`, `Rp.map_unmap_exact`, `Rp.huge_free_exact_partial`, `Rp.huge_free_leaks`, `Rp.realloc_preserves`, `Rp.realloc_reads`, `Rp.held_blocks_disjoint`, `Rp.malloc_hands_out_new`, `Rp.aligned_fine_partial`, `Rp.counters_never_broken`, `Rp.new_span_only_if_used_up`, `Rp.span_given_back`, `Rp.deferred_span_collected`, `Rp.Spans.spans_disjoint`, `Rp.Spans.range_unmapped_once`, `Rp.Cache.caches_never_overflow`, `Rp.Cache.span_in_one_place`, `Rp.Cache.span_handed_out_once`, `Rp.Cache.cached_span_reused`, `Rp.Cache.finished_heap_is_empty`, `Rp.Threads.heap_one_thread`, `Rp.Threads.direct_free_own_heap`, `Rp.Threads.heap_not_lost`, `Rp.Deferred.deferred_never_ub`, `Rp.Deferred.live_block_in_no_list`, `Rp.Deferred.gone_means_unused`, `Rp.Deferred.handed_over_once`, `Rp.Stack.collected_not_in_use`, `Rp.Stack.collected_once`, `Rp.Stack.nothing_lost`, `Tls.Names.names_belong_together`, `Tls.Names.endings_differ`, `Tls.Names.use_certificate_first_partial`, `Tls.Names.use_certificate_again_ignored`, `Tls.Names.cert_path_detaches`, `Tls.Names.self_signed_made_partial`, `Tls.Names.existing_files_kept_partial`, `Tls.Names.marker_without_certificate`, `Tls.Names.own_key_overwritten`, `Wepoll.Tree.tree_is_a_table`, `Wepoll.Tree.table_unique`, `Wepoll.Tree.tree_root_spec`, `Wepoll.Tree.tree_search_cost`, `Wepoll.Queue.queues_are_lists`, `Wepoll.Queue.queue_walk`, `Wepoll.Ep.blocks_live_partial`, `Wepoll.Ep.close_frees_everything`, `Wepoll.Ep.close_frees_blocks_of_requests`, `Wepoll.Ep.registrations_exact`, `Wepoll.Ep.only_requested_events`, `Wepoll.Ep.requested_events_reported`, `Wepoll.Ep.failed_request_reported`, `Wepoll.Ep.oneshot_at_most_once`, `Wepoll.Ep.watched_while_waiting_partial`, `Wepoll.Ep.one_refused_socket_blocks_all`, `Wepoll.Ep.asked_iff_wanted`, `Wepoll.Ep.told_iff_meant`, `Wepoll.Ep.answer_not_in_vain`, `Wepoll.Ep.message_never_reported`, `Wepoll.Ep.handle_serves_32`, `Wepoll.Ep.few_handles`, `Wepoll.Handles.close_is_safe_partial`, `Wepoll.Handles.freed_is_unreachable`, `Wepoll.Handles.closing_is_unreachable`, `Wepoll.Handles.one_closer`, `Wepoll.Handles.signal_has_sleeper`, `Wepoll.Handles.sleeper_will_wake`, `Wepoll.Handles.close_can_finish`, `Wepoll.Handles.add_while_closing_asserts`, `Wepoll.Timeout.pwait2_right_iff_partial`, `Wepoll.Timeout.whole_milliseconds_wrong`, `Wepoll.Timeout.one_more_is_too_early`, `Wepoll.Timeout.never_early`, `Wepoll.Timeout.packets_fit`, `Switch.task_goes_on_sysv`, `Switch.switch_writes_registers_only_sysv`, `Switch.switch_to_itself_sysv`, `Switch.control_bits_of_the_other`, `Switch.control_bits_leak`, `Switch.control_bits_partial`, `Switch.task_goes_on_i386`, `Switch.switch_writes_registers_only_i386`, `Switch.switch_to_itself_i386`, `Switch.task_goes_on_win64`, `Switch.switch_writes_registers_only_win64`, `Switch.misaligned_handle_faults`, `Switch.A64.task_goes_on_a64`, `Switch.A64.switch_writes_registers_only_a64`, `Switch.A64.task_goes_on_a64_windows_partial`, `Switch.A64.windows_overwrites_task`, `Switch.A64.windows_task_unrecognised`, `Switch.A64.windows_wrong_bounds`, `Switch.first_switch_sysv`, `Switch.first_switch_i386`, `Switch.first_switch_win64`, `Switch.first_switch_a64`, `Win.basename_last`, `Win.basename_unique`, `Win.memmem_same`, `Win.dirname_partial`, `Win.dirname_drops_drive`, `Win.dirname_root_ub`, `Win.sendfile_partial`, `Win.sendfile_count`, `Win.close_partial`, `Win.close_socket_leaks`, `Win.close_aborts`, `Win.changes_lost`, `Win.child_partial`, `Win.second_child_fails`, `Win.socketpair_closes_partial`, `Win.os_pipe_partial`, `Win.pipe2_wrong_second`, `Kq.Update.modified_partial`, `Kq.Update.added_dangling`, `Tasks.Count.run_ends_partial`, `Tasks.Count.main_not_resumed`, `Tasks.Count.pool_serves_partial`, `Tasks.Count.group_ends_thread`, `Pth.Barrier.barrier_groups`, `Pth.Barrier.barrier_members`, `Pth.Barrier.barrier_one_serial`, `Pth.Barrier.barrier_no_lost_wakeup`, `Pth.Barrier.barrier_member_returns`, `Pth.Barrier.barrier_destroy_waits`, `Pth.Once.once_retries_partial`, `Pth.Cancel.cancel_two_threads`, `Pth.Keys.key_fresh`, `Pth.Keys.key_create_works_partial`, `Pth.Keys.key_delete_works`, `Pth.Keys.delete_past_end`, `Pth.Keys.get_last_set`, `Pth.Keys.new_key_null_partial`, `Pth.Keys.new_key_stale`, `Pth.Keys.destructors_end`, `Pth.Keys.destructors_once`, `Pth.Keys.destructor_locks_hangs`, `Pth.Keys.destructor_stale`, `Pth.Life.life_safe_partial`, `Pth.Life.detached_freed_partial`, `Pth.Life.detach_after_end_leaks`, `Pth.Life.detached_race_leaks`, `Pth.Attr.set_ok_iff`, `Pth.Attr.attr_reads_last`, `Pth.Attr.cancel_settings`, `Pth.Attr.mutexattr_partial`, `Pth.Attr.protocol_spoils`, `Pth.Timed.cond_timed_partial`, `Pth.Timed.cond_before_1970`, `Watch.Walk.watches_all_below_partial`, `Rp.aligned_realloc`, `Rp.aligned_realloc_reads`, `Rp.Links.lists_refine`, `Rp.Finalize.heaps_given_back_partial`, `Io.Clock.now_forward_partial`, `Sched.Once.actor_in_time_partial`, `Sched.Once.no_wait_with_tasks`, `Sched.Once.actors_one_per_wait`, `Sched.Once.negative_wait_stalls`, `Sched.Once.loop_calls_all`, `Sched.Once.running_iff_partial`, `Sched.Once.signals_not_counted`, `Win.Waitpid.ended_is_reported`, `Win.Waitpid.strangers_are_waited_for`, `Win.Waitpid.polling_leaks`, `Win.Waitpid.wait_first_child_only`, `Win.Monitor.watching_one_closes_partial`, `Win.Monitor.watching_uses_up_table`, `Win.Monitor.watching_leaves_handles`, `Win.Monitor.close_keeps_others_partial`, `Win.Monitor.idle_close_closes_port`, `Switch.Stack.ucontext_overlaps`, `Switch.Stack.sjlj_overlaps`, `Switch.Frames.udp_recv_fits_partial`, `Switch.SigTasks.two_threads_end_program`, `Switch.SigTasks.two_threads_lose_context`, `Rp.own_block_freed_partial`, `Rp.windows_frees_nothing`, `Rp.windows_memory_grows`, `Tls.Bind.name_kept_partial`, `Tls.Bind.name_replaced`, `Tls.Bind.address_replaced_iff`, `Tasks.Place.usable_32`, `Tasks.Place.usable_64`, `Tasks.Place.upper_half_32`, `Tasks.Place.lowest_part`, `Uri.known_scheme_freed_partial`, `Io.PseudoRace.own_numbers_distinct_partial`, `Io.PseudoRace.own_numbers_kept`, `Io.PseudoRace.threads_get_same_entry`, `Io.PseudoRace.fifo_name_lost`, `Win.EnvBlock.environment_exact_partial`, `Win.EnvBlock.separated_even_exact`, `Win.EnvBlock.separated_odd_reads_on`, `Win.EnvBlock.empty_assignment_ends`, `Win.EnvBlock.single_assignment_dropped`, `Win.CmdLine.arguments_are_words`, `Win.CmdLine.arguments_exact_partial`, `Win.CmdLine.null_arguments`, `Win.CmdLine.argument_with_space_split`, `Win.CmdLine.empty_argument_lost`, `Win.CmdLine.name_with_space_shifts`, `Win.CmdLine.name_with_exe_inside`, `Win.CmdLine.long_name_cut`, `Win.ExecWait.wait_reports_end_partial`, `Win.ExecWait.wait_keeps_others_partial`, `Win.ExecWait.second_wait_takes_other`, `Win.ExecWait.process_256_ub`, `Win.ExecWait.start_safe_partial`, `Win.Fifo.pipes_by_name_partial`, `Win.Fifo.mkfifo_open_partial`, `Win.Fifo.second_open_closes_first`, `Win.Fifo.reopen_closes_other`, `Future.Defer.pool_defers_never_run`, `Future.Defer.pool_fences_run_partial`, `Future.Defer.pool_runs_iff`, `Io.SigRace.delivered_once_partial`, `Io.SigRace.one_by_one_partial`, `Io.SigRace.two_signals_end_the_process`, `Io.SigRace.adding_mixes_masks`, `Io.SigRace.lost_while_adding`, `Io.SigRace.own_signal_waits_partial`, `Io.SigRace.after_the_callback_ends_the_process`, `Sched.Callback.task_defers_partial`, `Sched.Callback.callback_defer_waits`, `Win.Atomics.right_size_partial`, `Win.Atomics.cells_independent_partial`, `Win.Atomics.four_byte_store_overwrites`, `Win.Atomics.four_byte_add_carries`, `Win.Atomics.four_byte_sub_borrows`, `Win.Atomics.four_byte_load`, `Win.Atomics.four_byte_cas_fails`, `Tls.Keys.failed_export_breaks_pair`, `Tls.Keys.export_frees_once_partial`, `Tls.Keys.rsa_pkey_owns_partial`, `Tls.Keys.keygen_failure_frees_twice`, `Tls.Keys.lost_key_stays`, `Except.Terminate.ctrl_once_partial`, `Except.Terminate.run_total`, `Tls.Text.text_exact_partial`, `Tls.Text.garbage_follows`, `Io.Fifo.others_left_alone_partial`, `Io.Fifo.made_then_opened_partial`, `Io.Fifo.failed_mkfifo_hides`, `Io.Fifo.full_table_opens_other`, `Io.Fifo.long_names_clash`, `Io.Fifo.absolute_not_honoured`, `Tls.CloseRace.own_object_partial`, `Tls.CloseRace.single_thread`, `Tls.CloseRace.continues_in_clear_text`, `Tls.CloseRace.clear_takes_away`, `Tls.CloseRace.freed_twice`, `Tls.CloseRace.dropped_object_used`, `Io.Handlers.closes_other`, `Io.Handlers.writes_to_other`, `Kq.Monitor.poll_works_partial`, `Kq.SyncRead.large_buffer_partial`, `Kq.SyncRead.single_change_partial`, `Kq.SyncRead.returns_records`, `Kq.SyncRead.any_buffer_overrun`, `Kq.SyncRead.others_lost`, `Win.Signals.called_once_partial`, `Win.Signals.callbacks_exclude`, `Win.Signals.again_too_early`, `Win.Signals.again_later`, `Except.Seh.follows_spec_partial`, `Except.Seh.throw_in_catch_block`, `Except.Seh.pointer_to_ended_statement`, `Except.Seh.hardware_not_caught`, `Except.Seh.hardware_any_partial`, `Except.Seh.other_codes_misnamed`, `Future.Affinity.windows_bound_partial`, `Future.Affinity.mac_sets_confused`, `Win.Grow.growth_idle_partial`, `Win.Grow.growth_pending`, `Future.ThreadLocal.first_call_alone_partial`, `Future.ThreadLocal.two_keys`, `Future.ThreadLocal.other_variable`, `Future.ThreadLocal.null_pointer`, `Io.Fprintf.counted_but_lost`, `Io.Fprintf.failure_not_told`, `Io.Fprintf.append_keeps`, `Win.Loops.after_removal`, `Win.Loops.removed_twice`, `Win.StdHandles.std_given_partial`, `Win.StdHandles.holds_iff`, `Win.StdHandles.holds_of_others`, `Win.StdHandles.holds_own_partial`, `Win.ExecRace.other_program`, `Win.ExecRace.other_program_own_arguments`, `Except.Scratch.itoa_ok_iff`, `Except.Scratch.gone_after_guard`, `Except.Scratch.gone_after_guard_of_other`, `Except.Scratch.strerror_into_freed`, `Tls.Machine.beginning_seen`, `Tls.Machine.whole_seen_partial`, `Tls.Machine.part_seen`, `Wepoll.BaseSocket.returns_partial`, `Tls.Eof.told_after`, `Win.Uname.ends_iff`, `Win.Uname.written_partial`, `Win.Uname.version_left`, `Win.Uname.description_given`, `Win.Uname.intel_name`, `Win.Uname.machine_tells`, `Future.Spread.even_partial`, `Future.Spread.turn`, `Future.Spread.one_worker`, `Future.Spread.not_even`, `Future.Spread.all_given`, `Fd.UserData.behind_iff`, `Wepoll.Init.retried`, `Wepoll.Errors.errno_iff`, `Wepoll.Errors.not_socket`, `Tls.Trust.files_first`, `Tls.Trust.one_file`, `Tls.Trust.empty_choice`, `Rp.posix_partial`, `Rp.calloc_aligned_partial`, `Fd.Blocking.nonblocking_only`, `Fd.Blocking.blocking_only`, `Fd.Blocking.restore_iff`, `Fd.Blocking.shared`, `Fd.Blocking.lost`, `Proc.SpawnPipes.child_nonblocking`, `Proc.SpawnPipes.child_told_again`, `Proc.InputEnd.waits_for_other`
