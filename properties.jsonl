{"id": "C01", "title": "Array histories behave like a list", "statement": "Starting from arrays(n, v1..vn), every sequence of $append, $pop, $shift, $remove, $reset and index/size queries made through the same handle gives exactly the results of the corresponding list operations (append at end, drop last, drop first, delete i-th or no-op if out of range, clear), never touches memory outside the block and never uses a freed block.", "quantifier": "every number of initial arguments, every finite sequence of operations and values, every behaviour of realloc (moving or in place)", "why_tests_cant": "A test runs one history with one allocator; whether the caller's handle survives growth depends on whether realloc moves the block.", "anchors": ["src/arrays.c:array_grow", "src/arrays.c:data_append", "src/arrays.c:data_pop", "src/arrays.c:data_shift", "src/arrays.c:data_remove", "src/arrays.c:data_reset", "src/arrays.c:arrays", "include/arrays.h:$append"]}
{"id": "C02", "title": "Appending to an empty array that was produced by the library is safe", "statement": "For every array the library hands out (arrays, $copy of any array, rangeing), $append stores the value as the new last element without writing outside the allocated block.", "quantifier": "every array obtainable from arrays/$copy/rangeing followed by $append", "why_tests_cant": "Only arrays whose capacity has been trimmed to zero misbehave; writing one slot past a malloc block usually goes unnoticed in a test.", "anchors": ["src/arrays.c:data_append", "src/arrays.c:data_copy", "src/arrays.c:rangeing"]}
{"id": "C03", "title": "Tuples are immutable", "statement": "After $tuple(a), each of $append, $pop, $shift, $remove, $reset raises logic_error and leaves size and every element unchanged, whatever operations were tried before.", "quantifier": "every array content and every sequence of attempted mutations after $tuple", "why_tests_cant": "Immutability must survive every sequence of attempts, not the ones a test lists.", "anchors": ["src/arrays.c:data_tuple", "src/arrays.c:data_append", "src/arrays.c:data_pop", "src/arrays.c:data_shift", "src/arrays.c:data_remove", "src/arrays.c:data_reset"]}
{"id": "C04", "title": "$copy gives an equal and independent array", "statement": "$copy(NULL, src) returns an array with the same elements in the same order, the same size and the same kind as src, and later operations on either array never change the other.", "quantifier": "every source array and every later history of operations on source or copy", "why_tests_cant": "Aliasing shows up only for particular later histories.", "anchors": ["src/arrays.c:data_copy", "src/arrays.c:array_grow"]}
{"id": "C05", "title": "range / rangeing / range_char contents", "statement": "range(a,b) holds a, a+1, ..., b-1 (b>=a); rangeing(a,b,s) holds a, a+s, a+2s, ... while below b (s>0); range_char(t) holds the bytes of t in order.", "quantifier": "all integer bounds with a<=b and steps>0; all strings", "why_tests_cant": "Unbounded integer inputs; growth of the backing array happens only for long ranges.", "anchors": ["src/arrays.c:rangeing", "src/arrays.c:range", "src/arrays.c:range_char"]}
{"id": "C06", "title": "Base64 round trip", "statement": "For every non-empty NUL-free byte string s and buffers large enough, str_decode64(str_encode64(s)) is s, and the encoded text is accepted by str_is_base64.", "quantifier": "all byte strings without NUL, of any length", "why_tests_cant": "All byte values at all positions modulo 3 cannot be enumerated.", "anchors": ["src/arrays.c:str_encode64", "src/arrays.c:str_decode64", "src/arrays.c:str_is_base64"]}
{"id": "C07", "title": "Base64 never writes past the destination and has the exact documented length", "statement": "str_encode64 either returns NULL and leaves dst alone or writes exactly 4*ceil(n/3) characters plus a NUL, all inside dst_len; str_decode64 writes only inside dst_len.", "quantifier": "all sources and all destination sizes", "why_tests_cant": "Overflow depends on the exact relation of two unbounded lengths.", "anchors": ["src/arrays.c:str_base64_len", "src/arrays.c:str_encode64", "src/arrays.c:str_decode64"]}
{"id": "C08", "title": "Base64 decoding rejects malformed text", "statement": "str_decode64 returns NULL for every text whose length is not a multiple of 4 or which contains a byte outside the alphabet or '=', and otherwise the output is the standard decoding of the quadruples up to the first padded one.", "quantifier": "all byte strings", "why_tests_cant": "The set of malformed inputs is infinite.", "anchors": ["src/arrays.c:str_decode64", "src/arrays.c:str_is_base64"]}
{"id": "C09", "title": "Substring search finds the first occurrence", "statement": "mempos/str_pos returns the smallest offset at which the needle occurs, and -1 iff it does not occur; str_has agrees with it.", "quantifier": "all haystacks and all needles (arbitrary bytes)", "why_tests_cant": "memchr/memcmp resume logic can skip overlapping candidates only for special self-similar inputs.", "anchors": ["src/arrays.c:mempos", "src/arrays.c:str_pos", "src/arrays.c:str_has"]}
{"id": "C10", "title": "Occurrence counting", "statement": "str_subcount/mem_subcount returns the number of occurrences found by scanning left to right without overlap.", "quantifier": "all texts and non-empty patterns", "why_tests_cant": "Same as C09; overlapping and boundary cases are unbounded.", "anchors": ["src/arrays.c:mem_subcount", "src/arrays.c:str_subcount"]}
{"id": "C11", "title": "str_split_ex loses nothing", "statement": "For non-empty s and delim, the words returned joined with delim give back s, no word contains delim, and the returned count equals the number of words.", "quantifier": "all strings s and delimiters", "why_tests_cant": "Buffer layout arithmetic depends on count, length and delimiter length.", "anchors": ["src/arrays.c:str_split_ex"]}
{"id": "C12", "title": "str_explode loses nothing", "statement": "If delim occurs in s, the pieces of str_explode(s, delim) joined with delim give back s and none contains delim; if it does not occur the single piece is s.", "quantifier": "all strings s and non-empty delimiters", "why_tests_cant": "As C11.", "anchors": ["src/arrays.c:str_explode"]}
{"id": "C13", "title": "str_swap_ex replaces every occurrence", "statement": "When needle occurs, the result equals the pieces of haystack between (left to right, non overlapping) occurrences joined with the replacement; the buffer is exactly large enough; NULL is returned iff needle does not occur.", "quantifier": "all haystacks, non-empty needles and replacements", "why_tests_cant": "Length arithmetic with shrinking/growing replacements over arbitrary counts.", "anchors": ["src/arrays.c:str_swap_ex"]}
{"id": "C14", "title": "str_repeat", "statement": "str_repeat(s, k) is s concatenated k times and the doubling copy never reads unwritten bytes nor writes past the buffer.", "quantifier": "all strings and all k>=0", "why_tests_cant": "The doubling memmove loop has a different shape for every k.", "anchors": ["src/arrays.c:str_repeat"]}
{"id": "C15", "title": "str_pad", "statement": "str_pad(s, n, pad, kind) has length max(n, |s|), contains s unchanged at the place the kind dictates and cyclic copies of pad elsewhere.", "quantifier": "all strings, all lengths, all non-empty pads, the three kinds", "why_tests_cant": "Unbounded lengths, remainder arithmetic.", "anchors": ["src/arrays.c:str_pad"]}
{"id": "C16", "title": "str_lcpy bound and termination", "statement": "str_lcpy(dst, src, n) for n>0 leaves dst NUL-terminated holding the first min(|src|, n-1) bytes of src, writes nothing at or beyond dst[n], and never reads past the terminator of src.", "quantifier": "all src and n", "why_tests_cant": "Memory-safety claim over all lengths.", "anchors": ["src/arrays.c:str_lcpy"]}
{"id": "C17", "title": "Case-insensitive comparison is an equivalence on ASCII case classes", "statement": "str_case_equal(a,b,n) and str_is_case hold exactly when the compared prefixes agree after ASCII lower-casing; hence reflexive, symmetric, transitive.", "quantifier": "all byte strings", "why_tests_cant": "256x256 table interactions across unbounded strings.", "anchors": ["src/arrays.c:str_case_equal", "src/arrays.c:str_is_case", "src/arrays.c:binary_strcasecmp"]}
{"id": "C18", "title": "memsort sorts", "statement": "memsort leaves the array a permutation of the input, in non-decreasing order for every comparison function that is a total preorder.", "quantifier": "all arrays of any length, all comparison functions", "why_tests_cant": "Gap sequences behave differently on each length; permutation must hold even for inconsistent comparators.", "anchors": ["src/arrays.c:memsort"]}
{"id": "C19", "title": "str_itoa prints the decimal representation", "statement": "str_itoa(x) yields the canonical decimal numeral of x for every 64-bit x, including the sign.", "quantifier": "all 2^64 inputs", "why_tests_cant": "Only certain ranges (negative, >= 2^31) go wrong.", "anchors": ["src/arrays.c:str_itoa", "src/arrays.c:utoa2p"]}
{"id": "C20", "title": "trim removes exactly the outer white space", "statement": "trim(s) is s without its maximal leading and trailing white space, inner bytes intact, and never reads before the start of the string.", "quantifier": "all strings, including empty and all-blank ones", "why_tests_cant": "The out-of-bounds read happens only on blank strings and rarely crashes.", "anchors": ["src/arrays.c:trim", "src/arrays.c:ltrim", "src/arrays.c:rtrim"]}
{"id": "C21", "title": "parse_uri splits a well-formed URI into its components", "statement": "For every URI assembled as scheme://[user[:pass]@]host[:port][/path][?query][#fragment] from components free of the separator characters, parsing returns exactly those components.", "quantifier": "all component strings over the allowed alphabets, every subset of optional parts", "why_tests_cant": "Hand-written pointer scanner with gotos; combinations of optional parts times unbounded strings.", "anchors": ["src/arrays.c:url_parse_ex2", "src/arrays.c:parse_uri_ex"]}
{"id": "C22", "title": "Parsed ports are in range", "statement": "Whenever the URI parser accepts an input and reports a port, the port equals the decimal number written in the URI and lies in 0..65535.", "quantifier": "all input strings", "why_tests_cant": "Range claim over all inputs, five-digit overflow cases.", "anchors": ["src/arrays.c:url_parse_ex2"]}
{"id": "C23", "title": "Parsed URI components contain no control characters", "statement": "No component returned by the URI parser contains a byte that is a control character; all other bytes are copied unchanged and each component has the length of the slice it came from.", "quantifier": "all inputs", "why_tests_cant": "All bytes at all places.", "anchors": ["src/arrays.c:replace_ctrl_ex", "src/arrays.c:url_parse_ex2"]}
{"id": "C24", "title": "The work-stealing queue hands out each task exactly once", "statement": "With one producer pushing and any number of other threads stealing concurrently, every pushed task is obtained by at most one steal, none is invented, thieves receive tasks in push order, and at quiescence the tasks not stolen are exactly those still in the queue.", "quantifier": "all numbers of thieves, all interleavings of their atomic steps, all push sequences (including array growth)", "why_tests_cant": "Races show up only in particular interleavings.", "anchors": ["src/deque.c:deque_push", "src/deque.c:deque_steal", "src/deque.c:deque_resize"]}
{"id": "C25", "title": "The owner can take from the queue safely", "statement": "deque_take on a queue returns the most recently pushed task not yet stolen, or reports empty and leaves an empty queue usable; together with concurrent steals no task is delivered twice.", "quantifier": "all histories of push/take/steal, starting from a fresh queue", "why_tests_cant": "The index underflow on a fresh empty queue only occurs for one state; races on the last element only in particular interleavings.", "anchors": ["src/deque.c:deque_take"]}
{"id": "C26", "title": "Growing the work queue preserves its contents", "statement": "When deque_push finds the ring full, the doubled ring contains the same tasks in the same order, and the push succeeds.", "quantifier": "all ring sizes, all positions of top and bottom", "why_tests_cant": "Modular index arithmetic for arbitrary positions.", "anchors": ["src/deque.c:deque_resize", "src/deque.c:deque_push"]}
{"id": "C27", "title": "Run queue is FIFO and loses no task", "statement": "Scheduling tasks onto the run queue and taking them off gives first-in first-out order; removing a queued task leaves the relative order of the rest; the forward and backward links always describe the same list.", "quantifier": "all sequences of enqueue and dequeue of distinct tasks", "why_tests_cant": "Pointer surgery at head/tail/middle for all list shapes.", "anchors": ["src/events.c:enqueue", "src/events.c:dequeue", "src/events.c:task_dequeue"]}
{"id": "C28", "title": "A sleeping task never wakes before its deadline and wakes in deadline order", "statement": "A task that calls delay(ms) is put back on the run queue only when the clock has reached its deadline, all tasks whose deadline has passed are woken by a wakeup pass, earliest deadline first, and the sleeping count equals the number of sleeping tasks.", "quantifier": "all sets of sleepers, all deadlines, all clock histories", "why_tests_cant": "Order of ties and interleavings of insertions and wakeups are unbounded.", "anchors": ["src/events.c:add_timeout", "src/events.c:task_wait_system", "src/events.c:delay"]}
{"id": "C29", "title": "delay reports the time actually slept", "statement": "The value returned by delay is the number of elapsed milliseconds between call and wake-up.", "quantifier": "all durations", "why_tests_cant": "Truncation to 32 bits before the division appears only for sleeps longer than about 4.29 s.", "anchors": ["src/events.c:delay"]}
{"id": "C30", "title": "One-shot actors fire once, not early, in time order", "statement": "An actor set with events_actor(ms) is called exactly once, at a poll when the clock has reached its deadline, earlier deadlines first; a cleared actor is never called; the count of active timers equals the number of pending ones.", "quantifier": "all sequences of set/clear/poll and all clock histories", "why_tests_cant": "Histories and ties are unbounded.", "anchors": ["src/events.c:events_actor_timeout", "src/events.c:events_execute", "src/events.c:events_clear_actor", "src/events.c:events_repeat_actor"]}
{"id": "C31", "title": "Actor deadlines are now + ms", "statement": "The deadline computed for an actor is the current time plus the requested milliseconds for every accepted duration.", "quantifier": "all 32-bit millisecond values", "why_tests_cant": "int multiplication overflows only above 2147 ms.", "anchors": ["src/events.c:events_actor_timeout"]}
{"id": "C32", "title": "File-descriptor timeouts fire once, not early, and never get lost", "statement": "A descriptor armed with events_set_timeout(secs) gets exactly one timeout callback, in the first check after its slot expired, never earlier than one wheel resolution before the deadline and never more than one resolution late with respect to a check; re-arming replaces the earlier timeout; disarming removes it.", "quantifier": "all descriptors, all timeouts, all clock and arm/disarm histories", "why_tests_cant": "The two-level bitmap with rotation has a state for every subset of descriptors in every slot.", "anchors": ["src/events.c:events_set_timeout", "src/events.c:events_handle_timeout_internal", "src/events.c:events_init_loop_internal"]}
{"id": "C33", "title": "Two-level timeout bitmap is consistent", "statement": "A summary bit is set iff the corresponding word of the descriptor bitmap is non-zero, and a descriptor's bit is set in exactly the slot recorded for it.", "quantifier": "all arm/disarm/expire histories", "why_tests_cant": "Invariant over unbounded histories.", "anchors": ["src/events.c:events_set_timeout", "src/events.c:events_handle_timeout_internal"]}
{"id": "C34", "title": "Only registered descriptors of the loop are called back, with the events asked for", "statement": "A poll calls back a descriptor only if it is currently registered with that loop, with a non-empty subset of READ/WRITE that the kernel reported; after events_del no callback happens until it is added again.", "quantifier": "all histories of add/del/set_event and all kernel event batches, including changes made by callbacks in the same batch", "why_tests_cant": "Stale events in the same batch are schedule dependent.", "anchors": ["src/events.c:events_add", "src/events.c:events_del", "src/epoll.c:events_update_internal", "src/epoll.c:events_poll_once_internal"]}
{"id": "C35", "title": "events_add / events_del keep the descriptor count", "statement": "The descriptor count that events_once reports and events_is_running uses equals the number of registered descriptors of the loop; adding a registered descriptor again replaces the callback and does not change the count; out-of-range descriptors are rejected without effect.", "quantifier": "all histories of add/del", "why_tests_cant": "Re-add and del-twice histories.", "anchors": ["src/events.c:events_add", "src/events.c:events_del", "src/events.c:events_is_registered"]}
{"id": "C36", "title": "Result ids are unique and results stable", "statement": "Every task created obtains an id different from all earlier ones, and results_for(id) returns the value that task returned, once it has finished, no matter how many tasks are created or finish afterwards.", "quantifier": "all histories of create/finish/query, any number of tasks", "why_tests_cant": "The registry is reallocated at multiples of the queue size; stability ranges over all later histories.", "anchors": ["src/events.c:tasks_create_result", "src/events.c:tasks_result_set", "src/events.c:results_for", "src/events.c:task_is_ready"]}
{"id": "C37", "title": "Generators hand over every value once and in order", "statement": "Between a generator that yields v1, v2, ... and a consumer calling yielded, the consumer receives v1, v2, ... in order, each exactly once, and sees the end only after the last one.", "quantifier": "all value sequences, all schedules of the other tasks", "why_tests_cant": "Hand-over correctness must hold for every schedule.", "anchors": ["src/events.c:generator", "src/events.c:yielding", "src/events.c:yielded"]}
{"id": "C38", "title": "A task group collects exactly the results of its tasks", "statement": "tasks_wait returns only when all tasks of the group have finished, and the results contain exactly one entry for each task that finished with a non-empty result.", "quantifier": "all group sizes and completion orders", "why_tests_cant": "Completion orders are factorial, and elements are removed while iterating.", "anchors": ["src/events.c:tasks_wait", "src/events.c:task_group", "src/events.c:async_run"]}
{"id": "C39", "title": "Waitgroup tasks are partitioned over the worker threads", "statement": "When a waitgroup is distributed over the pool, each task is handed to exactly one thread and none is dropped.", "quantifier": "all group sizes and thread counts", "why_tests_cant": "Division remainders and exhausted groups appear only for particular counts.", "anchors": ["src/events.c:waitgroup", "src/events.c:tasks_poster", "src/events.c:waitfor"]}
{"id": "C40", "title": "Round-robin placement is fair", "statement": "Successive pool submissions go to threads in cyclic order; after k*n submissions on n threads each thread received exactly k.", "quantifier": "all counts including counter wrap-around", "why_tests_cant": "Fairness over unbounded sequences.", "anchors": ["src/events.c:task_push", "src/future.c:futures_pool"]}
{"id": "C41", "title": "A promise delivers its value once set, exactly as set", "statement": "promise_wait returns only after promise_set/promise_erred, and yields the value set; thrd_get/queue_get return the value computed by the job or rethrow its exception.", "quantifier": "all interleavings of worker and waiter", "why_tests_cant": "Interleavings.", "anchors": ["src/future.c:promise_set", "src/future.c:promise_wait", "src/future.c:thrd_get", "src/future.c:queue_get"]}
{"id": "C42", "title": "Queued jobs run in submission order on their worker", "statement": "Jobs submitted with queue_work to one worker thread are executed one at a time in submission order, each exactly once.", "quantifier": "all sequences of submissions interleaved with executions", "why_tests_cant": "Interleavings of producer and worker.", "anchors": ["src/future.c:queue_work", "src/future.c:enqueue_promise", "src/events.c:__future_wrapper"]}
{"id": "C43", "title": "queue_wait calls back once for every queued promise", "statement": "queue_wait invokes the completion handler exactly once for each promise outstanding and returns when all are done.", "quantifier": "all numbers of promises and completion orders", "why_tests_cant": "Elements are removed from the array being iterated.", "anchors": ["src/future.c:queue_wait"]}
{"id": "C44", "title": "An exception reaches the nearest enclosing matching handler", "statement": "A throw inside nested try blocks runs exactly the catch block of the innermost enclosing try whose catch matches, skips the remaining code between, and if none matches the program is terminated.", "quantifier": "all nestings of try/catch/finally/throw and all exception values", "why_tests_cant": "Nesting is unbounded; setjmp/longjmp state is hidden.", "anchors": ["include/except.h:try", "src/except.c:ex_throw", "src/except.c:try_next", "src/except.c:try_catching", "src/except.c:try_finish"]}
{"id": "C45", "title": "finally runs exactly once", "statement": "The finally block of every entered try statement is executed exactly once on every path: normal completion, caught exception, uncaught exception, and an exception thrown by the catch block.", "quantifier": "all nestings and all throwing behaviours", "why_tests_cant": "As C44.", "anchors": ["src/except.c:try_finallying", "src/except.c:try_next", "include/except.h:finally"]}
{"id": "C46", "title": "The handler stack is balanced", "statement": "After a try statement is left on any path the active handler is the one that was active before it was entered.", "quantifier": "all programs built from try/catch/finally/throw", "why_tests_cant": "As C44.", "anchors": ["src/except.c:try_start", "src/except.c:try_finish", "src/except.c:ex_throw"]}
{"id": "C47", "title": "Deferred functions run LIFO, exactly once", "statement": "When a guard scope or task ends, normally or by panic, each deferred function registered in it runs exactly once in reverse order of registration; functions deferred in outer scopes are not run.", "quantifier": "all sequences of defer in nested scopes, with panics at any point", "why_tests_cant": "Unbounded nesting and exit paths.", "anchors": ["src/except.c:scope_deferred", "src/except.c:scope_unwind", "src/events.c:deferred_unwind", "include/except.h:guard"]}
{"id": "C48", "title": "Protected pointers are released on unwinding", "statement": "When an exception unwinds past protected pointers, each still protected pointer is released exactly once, most recent first, and pointers unprotected earlier are not released.", "quantifier": "all sequences of protect/unprotect/throw", "why_tests_cant": "Sequences are unbounded.", "anchors": ["src/except.c:ex_protect_ptr", "src/except.c:ex_unwind_stack", "src/except.c:unprotected_ptr"]}
{"id": "C49", "title": "Installing an allocator is all-or-nothing", "statement": "events_set_allocator either installs all four given functions, or (if any is NULL) fails and leaves the previous allocator unchanged.", "quantifier": "all combinations of arguments and all sequences of calls", "why_tests_cant": "Cheap to test but the claim ranges over all call histories.", "anchors": ["src/events.c:events_set_allocator"]}
{"id": "C50", "title": "getopt_has finds flags and their values", "statement": "getopt_has(flag,false) is true exactly when some argument equals the flag (or the flag=value form for single flags), and getopts then returns the associated value; it never reads beyond argv.", "quantifier": "all argument vectors and flags", "why_tests_cant": "Argument vectors are unbounded; over-read occurs when the flag is last.", "anchors": ["src/getopt.c:getopt_has", "src/getopt.c:getopts"]}
{"id": "C51", "title": "async_write writes everything, in order, without duplication", "statement": "If async_write returns n>=0 then exactly the first n bytes of the buffer were accepted by the descriptor, in order, once; n is the requested count unless the descriptor accepted zero bytes; transient EAGAIN never loses or repeats bytes.", "quantifier": "all buffers and all sequences of partial writes/EAGAIN/errors returned by the kernel", "why_tests_cant": "The kernel's partial-write behaviour is not controllable in tests.", "anchors": ["src/async_io.c:async_write"]}
{"id": "C52", "title": "Address strings are parsed to the address and port written", "statement": "async_parse_addr(\"a.b.c.d:port\") yields that address and port; \"port\" alone yields any-address with that port; other strings never silently bind to a wrong port.", "quantifier": "all address strings", "why_tests_cant": "Operator-precedence defect shows only for port-only and digit-leading names.", "anchors": ["src/async_io.c:async_parse_addr"]}
{"id": "C53", "title": "Pseudo descriptors are allocated uniquely", "statement": "events_new_fd never returns an index that is in use, a freed index becomes available again, and events_get_fd maps a live index to the descriptor assigned to it and any other number to itself.", "quantifier": "all histories of new/assign/free/close made one after the other, including table growth", "why_tests_cant": "Histories are unbounded.", "anchors": ["src/os_unix.c:events_new_fd", "src/os_unix.c:events_free_fd", "src/os_unix.c:events_valid_fd", "src/os_unix.c:events_get_fd", "src/os_unix.c:os_close"]}
{"id": "C54", "title": "Spin lock gives mutual exclusion", "statement": "At most one thread is between atomic_lock and atomic_unlock of the same lock.", "quantifier": "all numbers of threads and all interleavings", "why_tests_cant": "Races.", "anchors": ["include/catomics.h:atomic_spinlock_lock", "include/catomics.h:atomic_spinlock_unlock"]}
{"id": "C55", "title": "exec_addenv builds the environment block", "statement": "exec_addenv appends k=v; for each pair in order after the existing block, keeps the earlier bytes, and the size is the exact length.", "quantifier": "all pair lists", "why_tests_cant": "Pairs longer than the internal buffer read out of bounds.", "anchors": ["src/async_io.c:exec_addenv"]}
{"id": "C56", "title": "Cooperative scheduling is fair and yields resume where they left", "statement": "With only yielding tasks on a thread, the tasks run in round-robin order; every runnable task runs again before any other runs twice; a task that finished never runs again.", "quantifier": "all numbers of tasks, all mixes of yield/finish/spawn", "why_tests_cant": "Schedules are unbounded.", "anchors": ["src/events.c:yield_task", "src/events.c:tasks_schedulering", "src/events.c:task_switch", "src/events.c:resume_task"]}
{"id": "C57", "title": "Cancelled tasks are reported cancelled and others are not", "statement": "task cancellation of one id affects only that id: other tasks' cancellation status and results stay the same.", "quantifier": "all histories", "why_tests_cant": "Histories.", "anchors": ["src/events.c:task_set_canceled", "src/events.c:await_for"]}
{"id": "C58", "title": "Concatenation helpers concatenate", "statement": "str_cat_ex(n, s1..sn) is the concatenation in order; str_cat_argv joins argv[start..] with the delimiter.", "quantifier": "all strings and counts; every history of earlier calls", "why_tests_cant": "str_cat_argv uses a static buffer whose state persists between calls.", "anchors": ["src/arrays.c:str_cat_ex", "src/arrays.c:str_cat_argv", "src/arrays.c:_str_append"]}
{"id": "C59", "title": "IP address text validation", "statement": "str_parseip accepts exactly the dotted quads with four decimal numbers 0..255 (and reports their value).", "quantifier": "all strings", "why_tests_cant": "Infinite input space.", "anchors": ["src/arrays.c:str_parseip"]}
{"id": "C60", "title": "scheme_type classification", "statement": "The transport chosen for a URI scheme is TCP for http/tcp/ws/ftp, TLS for https/tls/ssl/wss/ftps, PIPE for file/unix, UDP for udp, and invalid for every other scheme.", "quantifier": "all scheme strings", "why_tests_cant": "The test is a substring test in a comma-separated list, so unlisted fragments are accepted as well.", "anchors": ["src/arrays.c:scheme_type"]}
{"id": "C61", "title": "Tasks started by several threads on one worker all arrive", "statement": "When two threads start tasks on the same worker thread at the same time, both tasks end up in that worker's queue.", "quantifier": "all interleavings of any number of threads pushing to one queue", "why_tests_cant": "The loss needs two pushes to overlap between reading and writing one index.", "anchors": ["src/deque.c:deque_push", "src/events.c:enqueue_tasks"]}
{"id": "C62", "title": "Signals are delivered to their callback until removed, and do not disturb descriptors", "statement": "After events_add(loop, sig, EVENTS_SIGNAL, ...) each arrival of the signal calls the given callback exactly once, until events_del(sig), after which it is not called; registering or removing a signal leaves the registration of the descriptor with the same number alone.", "quantifier": "for all loops, signal and descriptor numbers, callbacks, and interleavings of registrations, removals, signal arrivals and polls", "why_tests_cant": "Tests use one signal on one loop; the defects need a descriptor number equal to a signal number, removal outside of the handler, or a slot freed before a re-registration.", "anchors": ["src/os_unix.c:events_sig_handler", "src/os_unix.c:events_add_signal", "src/events.c:events_add", "src/events.c:events_del"]}
{"id": "C63", "title": "Exceptions stay within a task", "statement": "When tasks of one thread use try statements and switch while inside of them, an exception thrown by a task is handled by the innermost try statement that this task is inside of, never by one of another task, and after all tasks left their try statements no handler is active.", "quantifier": "all interleavings of entering and leaving try statements by any number of tasks", "why_tests_cant": "It depends on where task switches fall between entering and leaving try statements.", "anchors": ["src/except.c:try_start", "src/except.c:try_finish", "src/except.c:ex_throw", "src/events.c:task_switch"]}
{"id": "C64", "title": "On BSD and macOS the kernel watches what is registered", "statement": "When a poll starts to wait, the kernel watches each registered descriptor for exactly the events asked for in its latest events_add or events_set_event, and watches nothing else, however many changes were made since the last poll and in whatever order.", "quantifier": "all histories of add, set_event, del, close and polls on any number of descriptors, including changes made by callbacks", "why_tests_cant": "Changes are queued on a list packed into per-descriptor words and told to the kernel in batches of up to 256; errors need particular orders or numbers of changes, and tests run on Linux.", "anchors": ["src/kqueue.c:apply_pending_changes", "src/kqueue.c:events_update_internal", "src/kqueue.c:events_poll_once_internal", "src/events.c:events_add", "src/events.c:events_del", "src/events.c:events_set_event"]}
{"id": "C65", "title": "On BSD and macOS a poll calls back registered descriptors with the event that happened", "statement": "A poll calls back a descriptor only if it is registered at that moment, with the callback of that registration and with an event that was asked for and reported by the kernel; end-of-file is reported as EVENTS_CLOSED.", "quantifier": "all histories and all batches of kernel reports, including changes made by callbacks in the same batch", "why_tests_cant": "The batches depend on timing; the end-of-file cases need a peer that closes at the right moment.", "anchors": ["src/kqueue.c:events_poll_once_internal", "src/events.c:events_add", "src/events.c:events_del"]}
{"id": "C66", "title": "Copying a file gives the same contents or an error", "statement": "When fs_copyfile(old, new) returns 0, new holds exactly the bytes of old, old is unchanged, and no other file or descriptor is affected; otherwise it returns -1.", "quantifier": "all file contents and sizes, all paths, all answers of the kernel (short transfers, interruptions, failures)", "why_tests_cant": "Tests copy small files with a kernel that moves everything at once; the loop only matters for files over 2 GiB or short transfers.", "anchors": ["src/os_unix.c:copyfile", "src/async_io.c:fs_copyfile"]}
{"id": "C67", "title": "os_copyfile never overwrites and copies exactly under short and interrupted transfers", "statement": "os_copyfile(from, to) always returns; 0 means that to did not exist before and now equals from; -1 means an existing to is untouched and a new one is a beginning of from; in both cases no descriptor is left open and no other file changes; without failures it does succeed.", "quantifier": "all file contents, all paths, all sequences of short reads, short or empty writes, interrupted and failing system calls", "why_tests_cant": "The sequences of short and interrupted transfers cannot be provoked or enumerated in tests.", "anchors": ["src/os_unix.c:os_copyfile"]}
{"id": "C68", "title": "Writing a whole file replaces its contents and failures are reported", "statement": "When fs_writefile(path, text) returns the length of text, the file holds exactly text; when the file cannot be written the result says so; fs_touch answers true only if the file exists afterwards and never changes what a file holds.", "quantifier": "all texts shorter than 2 GiB, all previous contents, all answers of the kernel", "why_tests_cant": "A test picks one text and one previous state, usually a new file; the property is about every pair.", "anchors": ["src/async_io.c:fs_writefile", "src/async_io.c:fs_touch", "src/events.c:task_code"]}
{"id": "C69", "title": "Reading a whole file gives all of it as a terminated string", "statement": "fs_readfile(path) returns NULL or a buffer that holds the complete contents followed by a zero byte, with room for both; what fs_writefile wrote to a new file is what fs_readfile returns.", "quantifier": "all contents and sizes, all answers of the kernel", "why_tests_cant": "Short reads and files beyond the transfer limit of read do not occur in tests.", "anchors": ["src/async_io.c:fs_readfile", "src/async_io.c:fs_filesize", "src/async_io.c:fs_read"]}
{"id": "C70", "title": "fs_close closes an open descriptor, once", "statement": "fs_close of an open descriptor closes it and no other; a second fs_close of the same descriptor right after is refused without reaching the kernel.", "quantifier": "all programs of fs_open, fs_close, fs_read, fs_write and fs_filesize calls, any number of worker threads", "why_tests_cant": "The guard against double closing remembers one descriptor per worker; it misfires only for particular interleavings of calls over workers.", "anchors": ["src/async_io.c:fs_close", "src/async_io.c:fs_open", "src/future.c:futures_pool", "src/future.c:queue_work"]}
{"id": "C71", "title": "Each change record with a name is reported once, in order, with its kind and path", "statement": "When one read delivers a batch of inotify records, the handler is called once for each record that names a file and says it was added, removed, moved or modified, in the order of the records, with the watch number of the record, with exactly one of the four WATCH_ flags set (that of the kind) and with the path of the file; records without a name or of other kinds cause no call, and bytes behind the batch are not interpreted.", "quantifier": "for every number of records, every mask, cookie, name and padding, every contents of the buffer behind them, and every table of watches", "why_tests_cant": "The number and mix of records in a batch, their paddings and mask combinations are unbounded; a test sees the few batches the kernel happens to deliver.", "anchors": ["src/os_unix.c:inotify_handler", "src/os_unix.c:inotify_task", "include/async_io.h:events_monitors"]}
{"id": "C72", "title": "A change is reported for the directory it happened in", "statement": "After a directory tree is watched, a change in any of its directories is reported with the path of that directory, whichever numbers the kernel gives to the watches and the monitor, and however many monitors there are.", "quantifier": "for every tree, every numbering by the kernel, every table of descriptors and every batch of records", "why_tests_cant": "The numbers depend on how many descriptors are open and how many directories there are; tests watch one directory in a fresh process.", "anchors": ["src/os_unix.c:__inotify_add_watch", "src/os_unix.c:inotify_recursive", "src/os_unix.c:events_new_fd", "src/os_unix.c:inotify_handler", "src/os_unix.c:fs_events_path"]}
{"id": "C73", "title": "A directory tree of any size can be watched", "statement": "Watching a directory with any number of directories below it either succeeds or fails with an error code; it never accesses memory outside the table of descriptors.", "quantifier": "for every number of directories, every numbering by the kernel and every state of the table", "why_tests_cant": "Tests watch a handful of directories; the limit depends on the free entries of a table that other descriptors share.", "anchors": ["src/os_unix.c:__inotify_add_watch", "src/os_unix.c:inotify_recursive", "src/os_unix.c:events_new_fd"]}
{"id": "C74", "title": "Closing a monitor releases all its watches, removing one releases that one", "statement": "Closing a monitor ends all its watches in the kernel and makes the table entries of the monitor and of all its watches free again; removing a single watch ends it in the kernel and frees its entry and nothing else.", "quantifier": "for every monitor, every list of watches and every state of the table", "why_tests_cant": "An entry that stays in use is invisible to a test that watches once and exits; the loss shows only over many monitors.", "anchors": ["src/os_unix.c:inotify_close", "src/os_unix.c:__inotify_rm_watch", "src/os_unix.c:os_close", "src/os_unix.c:events_free_fd"]}
{"id": "C75", "title": "Stepping with inotify_next visits every record read", "statement": "After a read on a monitor, starting at the first record and following inotify_next visits all records of the buffer in order and then ends.", "quantifier": "for every history of monitors, watches and reads, and every number of records in the buffer", "why_tests_cant": "A test or example that causes a single change cannot see that the second record is never reached.", "anchors": ["src/os_unix.c:inotify_next", "src/os_unix.c:os_read", "examples/inotify.c:main"]}
{"id": "C76", "title": "Changes in a watched directory reach the handler through the event loop", "statement": "After a directory is watched with events_watch or fs_events, the event loop is notified by the kernel when the monitor has change records, and passes them to the handler.", "quantifier": "for every history of registrations, removals, callbacks and polls, and every readiness report of the kernel", "why_tests_cant": "A test that waits for a callback cannot tell a slow one from one that can never come; that no history leads to a call is a statement about all histories.", "anchors": ["src/events.c:events_watch", "src/events.c:events_add", "src/epoll.c:events_update_internal", "src/epoll.c:events_poll_once_internal", "include/events.h:EVENTS_PATHWATCH"]}
{"id": "C77", "title": "Cancelling a monitor ends that monitor and no other; removing its directory ends it", "statement": "fs_events_cancel ends the monitor it is given: the kernel stops watching its directory and its task ends; monitors of other directories go on. A monitor also ends when its directory is removed, and a directory that cannot be watched gives an error.", "quantifier": "for every number of monitors on a loop, every order of turns and every state of the table", "why_tests_cant": "Tests start one monitor; which others end depends on all monitors that share the loop.", "anchors": ["src/events.c:fsevents_init", "src/events.c:fsevents_stop", "src/events.c:fsevents_task", "src/events.c:events_del_watch", "src/events.c:events_is_watching"]}
{"id": "C78", "title": "A started program receives the arguments it was given", "statement": "exec(command, \"a,b,c\", info) runs command with argument vector [command, a, b, c]: the command first, then the comma-separated arguments, in order and unchanged, and no others.", "quantifier": "all commands and argument strings", "why_tests_cant": "Tests start a few programs with fixed arguments; empty, missing and unusual arguments are not tried, and no test looks at the whole argument vector.", "anchors": ["src/os_unix.c:exec", "src/os_unix.c:os_exec_info", "src/arrays.c:str_cat_ex", "src/arrays.c:str_split_ex"]}
{"id": "C79", "title": "A started program has the environment it was given", "statement": "exec_info(env, ...) with env of the form \"K1=V1;K2=V2\" gives the program exactly these variables; with NULL the program has the environment of its parent.", "quantifier": "all environment strings", "why_tests_cant": "A missing variable is only noticed by a program that asks for it; tests do not compare whole environments, nor the inherited one.", "anchors": ["src/os_unix.c:exec_info", "src/os_unix.c:os_exec_info", "include/async_io.h:exec_info"]}
{"id": "C80", "title": "A started program's standard streams are the ones named", "statement": "A program started with exec has as standard input, output and error the descriptors named in exec_info, or those of its parent where `inherit` is passed; a spawned program has the pipes to its parent. Other descriptors are not changed, and if a named one is not open the program is not run.", "quantifier": "all combinations of descriptors and all descriptor tables of the parent", "why_tests_cant": "Wrong connections show only for unusual numbers (0, exchanged 1 and 2, closed streams), each of which needs its own set-up.", "anchors": ["src/os_unix.c:exec_info", "src/os_unix.c:os_exec_info", "src/async_io.c:spawn_ex"]}
{"id": "C81", "title": "Waiting for a process reports how it ended", "statement": "exec_wait returns 0 when the process has ended, with its exit status or the negated number of the signal that killed it; with timeout 0 it returns at once and fails with ETIMEDOUT exactly if the process is running; with another timeout it waits at most that long. Signals that arrive meanwhile do not disturb it.", "quantifier": "all lives of the process, timeouts and signal arrivals", "why_tests_cant": "The order of signals, ends and waits is up to the kernel, and a wait that never returns cannot be observed by a test.", "anchors": ["src/os_unix.c:exec_wait"]}
{"id": "C82", "title": "Waiting for a process closes nothing but its own descriptor", "statement": "When exec_wait has reported the end of a process, the descriptors of the caller are as before it was started, except that the event descriptor made for the process is closed.", "quantifier": "all histories of starts and waits, all process numbers and open descriptors", "why_tests_cant": "A wrongly closed descriptor is noticed much later if at all, and only for process numbers that happen to be descriptor numbers.", "anchors": ["src/os_unix.c:exec_wait", "src/os_unix.c:os_close", "src/os_unix.c:os_exec_info"]}
{"id": "C83", "title": "Handles of processes are unique and starting is safe", "statement": "exec returns a handle that no unfinished process has, and starting a process is memory-safe however many are running.", "quantifier": "all histories of starts and waits", "why_tests_cant": "The failures need hundreds of unfinished processes or exhausted descriptors.", "anchors": ["src/os_unix.c:exec_info", "src/os_unix.c:events_new_fd", "src/os_unix.c:os_exec_info"]}
{"id": "C84", "title": "A process that could not be made is reported", "statement": "If the system cannot make a new process, exec says so to its caller and keeps no resources.", "quantifier": "all states in which exec is called, all later operations", "why_tests_cant": "Failure of vfork cannot be provoked in a unit test.", "anchors": ["src/os_unix.c:os_exec_info", "src/os_unix.c:exec_wait"]}
{"id": "C85", "title": "The output of a spawned process reaches its callback", "statement": "The output callback of spawn is given everything the process writes to its standard output, in order and once, in non-empty pieces, before the exit callback is called.", "quantifier": "all outputs, pipe sizes and interleavings of the process, the event loop and the task", "why_tests_cant": "Whether the process ends or fills the pipe between two polls depends on timing.", "anchors": ["src/async_io.c:spawn_io", "src/async_io.c:spawning", "src/async_io.c:spawn_ex"]}
{"id": "C86", "title": "The end of a spawned process is reported once and truly", "statement": "The exit callback of spawn is called exactly once, after the process has ended, with its exit status and, if it was killed, the signal; no output callback follows.", "quantifier": "all interleavings of the process, the event loop and the task; success and failure of starting and registering", "why_tests_cant": "Failures of vfork or of the registration cannot be provoked, and absence of a second call would have to be awaited for ever.", "anchors": ["src/async_io.c:spawning", "src/async_io.c:spawn_io", "src/os_unix.c:exec_wait"]}
{"id": "C87", "title": "A finished process stays finished", "statement": "Once spawn_is_finish says that a spawned process has finished, it says so for ever.", "quantifier": "all later histories of spawned processes", "why_tests_cant": "The tests spawn one process at a time and stop asking when it has finished.", "anchors": ["src/async_io.c:spawn_is_finish", "src/async_io.c:spawning", "src/os_unix.c:events_new_fd"]}
{"id": "C88", "title": "Joins and sleeps keep their times, joins deliver the exit code", "statement": "os_join(t, ms, &code) returns as soon as the thread has ended, with the code it passed to os_exit, and otherwise with ETIMEDOUT after exactly ms milliseconds (never, for -1); os_sleep(ms) returns after ms milliseconds.", "quantifier": "all clock readings, timeouts, exit codes and ends of the thread", "why_tests_cant": "Carries in the deadline arithmetic depend on the clock at the moment of the call, and exact times cannot be observed by a test.", "anchors": ["src/os_unix.c:_timespec_addms", "src/os_unix.c:os_join", "src/os_unix.c:os_exit", "src/os_unix.c:os_sleep"]}
{"id": "C89", "title": "pathinfo splits a path", "statement": "pathinfo gives the directory of a path (the current directory '.' if it has none), the last name of the directory, the file name and its extension (the text after the last dot, or nothing), and leaves the given string as it is.", "quantifier": "for all paths: all names, any number of repeated or trailing slashes", "why_tests_cant": "The repository tests a single absolute path; the misbehaviour is in paths without a slash, with trailing slashes and in the side effect on the argument.", "anchors": ["src/arrays.c:pathinfo", "include/arrays.h:fileinfo_t"]}
{"id": "C90", "title": "Copies of strings are exact and terminated", "statement": "str_dup, str_trim, str_trim_at and str_cpy give a terminated copy of exactly the requested bytes, whatever length is asked for and whatever the destination held before.", "quantifier": "for all strings, positions, lengths and previous contents of the destination", "why_tests_cant": "A missing terminator is invisible if the memory happens to be zero; reading past the source is invisible without a sanitizer.", "anchors": ["src/arrays.c:str_memdup_ex", "src/arrays.c:str_trim", "src/arrays.c:str_trim_at", "src/arrays.c:str_dup", "src/arrays.c:str_cpy"]}
{"id": "C91", "title": "Case conversion", "statement": "str_toupper and str_tolower convert every ASCII letter in place and change nothing else; conversions are idempotent, the last one decides, and two strings have equal upper-case forms exactly if they have equal lower-case forms.", "quantifier": "for all strings and all memory after them", "why_tests_cant": "All byte values and lengths; that nothing behind the terminator is touched.", "anchors": ["src/arrays.c:str_toupper", "src/arrays.c:str_tolower"]}
{"id": "C92", "title": "Typed appends read back", "statement": "Each typed append ($append_double, _unsigned, _signed, _string, _func, _char, _bool, _short) adds one element at the end whose value, read as the type or as any wider integer type, is the value appended; tuples refuse it.", "quantifier": "for all arrays, sequences of typed appends, values and earlier contents of the array", "why_tests_cant": "The upper bytes of a narrow element are zero in fresh memory; they are wrong only after particular histories.", "anchors": ["src/arrays.c:data_append_item", "include/arrays.h:values_t"]}
{"id": "C93", "title": "str_has_either finds either pattern", "statement": "str_has_either(src, a, b) is true exactly if src contains a or contains b, for patterns of any lengths, and reads nothing outside of the three strings.", "quantifier": "for all texts and pairs of patterns", "why_tests_cant": "False positives need a mixture of both patterns; the repository never calls the function.", "anchors": ["src/arrays.c:str_has_either"]}
{"id": "C94", "title": "Memory given to defer_free is freed at the end of the task and nothing else happens", "statement": "A block of memory that a task hands to defer_free is freed exactly once when the task ends, last one first; whatever bytes the block holds have no other effect.", "quantifier": "for all lists of deferred blocks and all their contents", "why_tests_cant": "The outcome depends on the contents of the memory (texts of files, received messages, results of string functions); tests use a few harmless texts and cannot try all contents.", "anchors": ["src/events.c:defer_free", "src/events.c:deferred_unwind", "src/arrays.c:is_data", "src/arrays.c:data_type", "include/arrays.h:defer_t"]}
{"id": "C95", "title": "Every datagram is received whole, once and in order", "statement": "The packets returned by udp_recv are the datagrams that arrived at the socket, in order, each once; udp_length is the datagram's length, udp_message gives its bytes followed by a zero byte, and later operations on the socket do not change them.", "quantifier": "for all sequences of arrivals, calls and task switches, and all datagrams", "why_tests_cant": "The test exchanges one datagram of five bytes; sizes, empty datagrams and interleavings are unbounded.", "anchors": ["src/async_udp.c:udp_recv", "src/async_udp.c:udp_message", "src/async_udp.c:udp_length"]}
{"id": "C96", "title": "A reply to a UDP packet goes to its sender", "statement": "udp_send(packet, ...) sends to the address the packet's datagram came from, and udp_ip(packet) names this address, whatever else has been received on the socket since.", "quantifier": "for all packets and all sequences of other operations between receiving and replying", "why_tests_cant": "A test with one client cannot show it, and which datagrams arrive before the handler replies depends on timing.", "anchors": ["src/async_udp.c:udp_send", "src/async_udp.c:udp_ip", "src/async_udp.c:udp_recv", "src/events.c:events_get_sockaddr"]}
{"id": "C97", "title": "UDP packets live as long as they are needed and are freed once", "statement": "Receiving on a UDP socket, and handling each packet in a task of its own with udp_handler, never uses freed memory, frees the packet, its message and its address exactly once when the handler ends, and does nothing else then.", "quantifier": "for all interleavings of receiving, handling and ending tasks", "why_tests_cant": "The test handles one packet; use after free shows only with certain orders and only under a checker, and the effect of crafted contents not at all.", "anchors": ["src/async_udp.c:udp_recv", "src/async_udp.c:udp_client", "src/async_udp.c:udp_handler", "src/async_udp.c:udp_message", "src/events.c:deferred_unwind"]}
{"id": "C98", "title": "async_sendto sends to the destination set with udp_to", "statement": "After udp_to(fd, address, flags) all that async_sendto(fd, ...) sends goes to this address until another one is set, for IPv4 and IPv6 addresses.", "quantifier": "for all addresses and all sequences of operations between setting the destination and sending", "why_tests_cant": "One test with one IPv4 address and no receive in between cannot show what happens with other addresses and orders.", "anchors": ["src/async_udp.c:udp_to", "src/async_udp.c:async_sendto", "src/async_udp.c:udp_connect"]}
{"id": "C99", "title": "A task that waits for a descriptor is woken by the next event on it", "statement": "A task that waits for a descriptor to become readable or writable (as reading, writing, accepting and connecting do) is made runnable exactly once, by the first poll of its loop that reports the descriptor ready in the direction asked for or hung up, whatever else the poll reports; tasks that wait for the same descriptor at the same time, one to read and one to write, are each woken.", "quantifier": "all histories of waits by any tasks on any loops, opening and closing of descriptors, and polls returning any batches of events", "why_tests_cant": "Which events share a batch and which tasks wait at the same time depends on the peers' timing.", "anchors": ["src/events.c:async_wait", "src/events.c:wait_cb", "src/events.c:events_add", "src/events.c:events_del", "src/epoll.c:events_poll_once_internal"]}
{"id": "C100", "title": "Address texts are split into host and port", "statement": "From an address text with or without scheme and port (scheme://host:port) the host part is handed to the binding, connecting and sending functions, as valid memory, and the text given by the caller is left unchanged.", "quantifier": "all address texts, in both memory modes", "why_tests_cant": "Infinite input space; use after free and wild pointers may go unnoticed.", "anchors": ["src/arrays.c:str_parseip", "src/async_udp.c:udp_to", "src/async_uds.c:uds_bind"]}
{"id": "C101", "title": "UNIX socket paths: server, client and clean-up agree", "statement": "Binding a UNIX socket to a path creates it under that path, a client connecting to the same path reaches that server, and the file removed when the server's task ends is the one that was created.", "quantifier": "all paths", "why_tests_cant": "Tests use one short path.", "anchors": ["src/async_uds.c:uds_bind", "src/async_uds.c:uds_connect", "src/async_io.c:async_bind", "src/async_io.c:async_connect", "src/arrays.c:str_parseip"]}
{"id": "C102", "title": "Reading from a TLS connection", "statement": "tls_reader returns the number of bytes that the TLS library delivered, 0 exactly at the end of the stream and a negative error otherwise; it waits as often as the library asks, and does not give up while the library could still deliver data.", "quantifier": "all sequences of results of the TLS library and all wake-ups by the kernel", "why_tests_cant": "The library's requests to wait and hang-ups depend on the peer's timing.", "anchors": ["src/async_tls.c:tls_reader", "src/async_tls.c:tls_poll", "src/async_tls.c:tlserr", "src/events.c:wait_cb"]}
{"id": "C103", "title": "Writing to a TLS connection", "statement": "tls_writer(fd, buf, n) sends the n bytes of the buffer once and returns n, or a negative error; waits that the library asks for lose or repeat nothing, and no other memory than those n bytes is read.", "quantifier": "all buffers, lengths, sequences of results of the TLS library and wake-ups", "why_tests_cant": "The library's partial results and requests to wait are not controllable in tests.", "anchors": ["src/async_tls.c:tls_writer", "src/async_tls.c:tls_poll", "src/async_tls.c:tlserr"]}
{"id": "C104", "title": "TLS connections are handed out only after the handshake, and cleaned up otherwise", "statement": "tls_accept and tls_dial return a descriptor only if the library completed the handshake; if accepting, connecting or the handshake fails they return an error, with the descriptor closed once and the TLS object freed once, without undefined behaviour.", "quantifier": "all sequences of results of the TLS library, of accept and of wake-ups", "why_tests_cant": "Failures in the handshake are hard to provoke at every point.", "anchors": ["src/async_tls.c:tls_accept", "src/async_tls.c:async_tls_accept", "src/async_tls.c:async_tls_connect", "src/async_tls.c:tls_dial", "src/async_tls.c:tls_closer"]}
{"id": "C105", "title": "Tasks given to a pool thread arrive exactly once and in order", "statement": "Every task started with go for a pool thread is put on that thread's run queue exactly once, in the order in which the tasks were started, and a pass of the pool thread leaves none behind that was completely handed over before it.", "quantifier": "all interleavings of the thread that starts tasks and the pool thread that takes them, all numbers of tasks", "why_tests_cant": "The queue and its counter are updated separately; a test sees only the interleavings that the machine happens to produce.", "anchors": ["src/events.c: enqueue_tasks, task_take, go, __tasks_pool_main"]}
{"id": "C106", "title": "Every processor gets its thread at start-up", "statement": "events_init_pool(count) assigns to every processor one thread: count of them (at least one, at most all) serve futures, the others serve tasks; it may be called again, and code that needs a pool thread creates one or reports that it cannot.", "quantifier": "all numbers of processors and all counts", "why_tests_cant": "A test runs on one machine with one number of processors; the failures need a machine with a single one or particular counts.", "anchors": ["src/events.c: events_init_pool, events_create_future, events_create_pool, events_init_loop_internal, accept_handler", "src/epoll.c: events_create"]}
{"id": "C107", "title": "Creating and stopping pool threads reports the truth", "statement": "events_create_pool reports success exactly if a thread serves tasks for the loop afterwards; a failed events_create leaves nothing of the loop in use; thrd_pool_shutdown tells every thread to stop.", "quantifier": "all outcomes of memory, descriptor and thread allocation, all numbers of processors", "why_tests_cant": "Failures of thread or descriptor creation do not happen in tests, and what is wrong shows only in the next call.", "anchors": ["src/events.c: events_create_pool, events_init_loop_internal", "src/epoll.c: events_create", "src/future.c: thrd_pool_shutdown"]}
{"id": "C108", "title": "Results of blocking calls made in the pool come back unchanged", "statement": "What a function run in the thread pool returns (a byte count, -1, a pointer, an array) is what the waiting task gets from queue_get, and after -1 errno is that of the function.", "quantifier": "all results and all contents of memory", "why_tests_cant": "Tests use small files; whether a number is mistaken for a pointer shows only for results above 512 MiB, or for pointers with particular bytes in front of them.", "anchors": ["src/future.c: promise_set, queue_get, queue_work_handler", "src/arrays.c: is_data, is_ptr_usable", "src/async_io.c: fs_read, fs_write, fs_fread, fs_fgets"]}
{"id": "C109", "title": "The counts of async_fwrite and fs_fwrite", "statement": "async_fwrite and fs_fwrite return the number of items that were written to the file.", "quantifier": "all numbers of items and all outcomes of opening, writing, flushing and closing", "why_tests_cant": "Full disks and writes of gigabytes do not happen in tests.", "anchors": ["src/async_io.c: async_fwrite, _os_fwriter, fs_fwrite, _os_fwrite"]}
{"id": "C110", "title": "A server socket is made completely or not at all", "statement": "async_bind and async_socket either return a non-blocking descriptor that is bound to the address given and (for stream sockets) listens, or return -1 and leave no descriptor and no memory behind.", "quantifier": "all protocols and addresses, and every combination of failures of socket, setsockopt, bind and listen", "why_tests_cant": "Tests bind to a free local IPv4 port; they do not make the single system calls fail.", "anchors": ["src/async_io.c: async_bind, async_socket"]}
{"id": "C111", "title": "Connecting succeeds completely or leaves nothing, and errno tells why", "statement": "async_connect returns a descriptor connected to the address asked for, or -1 with everything released and errno set to the reason.", "quantifier": "all protocols and addresses and all failures, immediate or while waiting", "why_tests_cant": "Refused and timed-out connections need a particular network, and the leak of a record or descriptor is not visible in one run.", "anchors": ["src/async_io.c: async_connect"]}
{"id": "C112", "title": "UNIX sockets are told from other descriptors", "statement": "socket_is_uds says of every open descriptor whether it is a UNIX socket, and accepting on a UNIX server works as long as it is open.", "quantifier": "all histories of making, accepting, closing and reusing descriptors and of ending tasks", "why_tests_cant": "Whether a number is reused and what lies in freed memory depends on the history; tests look at fresh descriptors.", "anchors": ["src/async_uds.c: socket_is_uds, uds_bind, uds_connect, uds_accept", "src/async_io.c: async_accept, async_bind, async_connect"]}
{"id": "C113", "title": "The timeout of a socket is the one asked for", "statement": "events_tcp_timeout(fd, ms) gives the socket a timeout of exactly ms milliseconds.", "quantifier": "all int values", "why_tests_cant": "A test waits for short timeouts only; the overflow begins at 35 minutes.", "anchors": ["src/events.c: events_tcp_timeout"]}
{"id": "C114", "title": "Looked-up addresses fit the memory given", "statement": "async_inet_pton stores an address of the asked family if and only if it returns 1, and never writes beyond the given length.", "quantifier": "all answers of the resolver, all families and lengths", "why_tests_cant": "What a resolver answers is not under a test's control.", "anchors": ["src/async_io.c: async_inet_pton"]}
{"id": "C115", "title": "An accepted client's address and port", "statement": "async_accept stores the client's numeric address as text in the 16-byte buffer and its port.", "quantifier": "all client addresses and ports, all prior contents of the buffer", "why_tests_cant": "Tests accept connections from 127.0.0.1.", "anchors": ["src/async_io.c: async_accept, async_sockaddr_str"]}
{"id": "C116", "title": "Aligned tables lie within their blocks", "statement": "The descriptor table and the timeout tables are aligned to cache lines and lie entirely in the memory allocated for them.", "quantifier": "all sizes, block addresses and values of rand()", "why_tests_cant": "The offset is random; an overrun by some bytes would only sometimes be noticed.", "anchors": ["src/events.c: events_memalign, events_init, events_init_loop_internal"]}
{"id": "C117", "title": "A signal throws the exception of its name", "statement": "Whenever the arrival of a signal throws an exception, it is the one documented for that signal (sig_int for SIGINT, ...), never another one or one without a name.", "quantifier": "all signals, all histories of try statements, guards, tasks, ex_signal_default and signals of the event loop", "why_tests_cant": "The table of handlers is filled and overwritten by any number of calls in any order; tests raise a few signals once.", "anchors": ["src/except.c: ex_signal, ex_handler, ex_signal_setup, ex_signal_default, ex_signal_reset"]}
{"id": "C118", "title": "Inside a try statement signals are exceptions", "statement": "From the first try, guard or task on, each documented signal throws its exception, unless the event loop is listening to it or ex_signal_default was called after the last try.", "quantifier": "all documented signals and all histories", "why_tests_cant": "Depends on everything that was done with the signal before.", "anchors": ["src/except.c: ex_signal_setup, try_start", "src/os_unix.c: events_add_signal, events_del_signal"]}
{"id": "C119", "title": "ex_signal_default gives all signals back", "statement": "After ex_signal_default every signal that the library turned into an exception has its default action, and keeps it until ex_signal_setup is called.", "quantifier": "all documented signals and all histories", "why_tests_cant": "A test would have to raise every signal, most of which end the process.", "anchors": ["src/except.c: ex_signal_default, ex_signal_reset"]}
{"id": "C120", "title": "A signal given to the event loop stays with it", "statement": "After events_add for a signal succeeded, each arrival of it goes to the callback until events_del, whatever exceptions, guards and tasks the program uses.", "quantifier": "all signals and all histories", "why_tests_cant": "Depends on whether the first try statement or task came before or after, and on calls of ex_signal_default in between.", "anchors": ["src/os_unix.c: events_add_signal, events_del_signal", "src/except.c: ex_signal_setup"]}
{"id": "C121", "title": "The memory of a job outlives its use", "statement": "After queue_work and queue_get neither the caller, nor the worker thread, nor the task that waits for the job uses memory that was freed; the function is called once, with the arguments given.", "quantifier": "all interleavings of the caller, the worker and the waiting task", "why_tests_cant": "Use of memory freed shortly before goes unnoticed most of the time and depends on the order of steps of two threads.", "anchors": ["src/future.c: queue_work, queue_get, queue_work_handler, promise_set", "src/events.c: __future_wrapper"]}
{"id": "C122", "title": "A promise serves several operations in turn", "statement": "A promise from promise_fopen, promise_popen or alloc_promise can be used for any number of promise_read, promise_fgets, promise_fwrite, ... one after the other and is then given up by promise_fclose or promise_pclose, without use of freed memory; each operation gets its own arguments.", "quantifier": "all numbers of operations, all interleavings of the caller, the workers and the waiting tasks", "why_tests_cant": "The arguments freed by the worker usually still look freed when the promise is used again, so that the program seems to work.", "anchors": ["src/future.c: alloc_promise, promise_work, promise_wait, promise_clean", "src/async_io.c: promise_read, promise_fgets, promise_fclose, promise_pclose", "src/events.c: __future_wrapper"]}
{"id": "C123", "title": "events_init returns 0 only when the library is ready", "statement": "If events_init returns 0, the tables of pseudo descriptors, of descriptors, and the queues of the library are there and cleared, whatever was called before.", "quantifier": "all sequences of events_init and events_deinit, each getting or not getting the memory and descriptors it asks for", "why_tests_cant": "Failures of allocation cannot be provoked in every place and every order by tests.", "anchors": ["src/events.c: events_init, events_deinit", "src/os_unix.c: os_init, os_shutdown"]}
{"id": "C124", "title": "Starting and stopping frees everything once", "statement": "In any order and number of events_init and events_deinit nothing is freed twice, nothing is used before it was allocated, and after events_deinit nothing is still allocated.", "quantifier": "all sequences of calls, each getting or not getting the memory and descriptors it asks for", "why_tests_cant": "Double frees and leaks on failure paths stay silent, and the orders of calls are unbounded.", "anchors": ["src/events.c: events_init, events_deinit", "src/os_unix.c: os_init, os_shutdown"]}
{"id": "C125", "title": "trying returns a live value with the result", "statement": "If trying returns, its value is still allocated, was never written after being freed, and holds what tryFunc returned, or, if tryFunc threw, what catchFunc returned.", "quantifier": "all functions tryFunc, catchFunc and finalFunc, all states, inside and outside of guard sections and tasks", "why_tests_cant": "A write into memory freed shortly before usually goes unnoticed, and only happens where the exception unwinds the scope at once.", "anchors": ["src/except.c: trying, fence, guard_set, scope_unwind"]}
{"id": "C126", "title": "Every small or medium request has a fitting size class", "statement": "A request of up to 32256 bytes is served from a size class whose blocks are at least as large as the request, are multiples of 16 bytes, and fit into a span as often as the class says; small requests waste less than 16 bytes. Larger requests use no class.", "quantifier": "all request sizes", "why_tests_cant": "The classes are computed and merged at start; tests try a few sizes, not every size against the final table.", "anchors": ["src/rpmalloc.c: _rpmalloc_adjust_size_class, rpmalloc_initialize_config, _rpmalloc_allocate"]}
{"id": "C127", "title": "malloc gives at least the memory asked for", "statement": "If malloc answers a request, the block has room for all the bytes asked for.", "quantifier": "all sizes, all page sizes up to 64 KiB, all answers of the kernel", "why_tests_cant": "Sums wrap around only for sizes near 2^64, and the answer looks like success.", "anchors": ["src/rpmalloc.c: _rpmalloc_allocate, _rpmalloc_allocate_huge, _rpmalloc_mmap_os"]}
{"id": "C128", "title": "calloc gives and clears num times size bytes", "statement": "A block from calloc has room for num times size bytes and all of them are cleared.", "quantifier": "all numbers and sizes", "why_tests_cant": "The product wraps around only for huge arrays; the call then succeeds with a small block.", "anchors": ["src/rpmalloc.c: rpcalloc"]}
{"id": "C129", "title": "Freeing a huge block unmaps exactly what was mapped", "statement": "Memory mapped for a huge block starts at a multiple of the span size, and freeing the block gives the kernel exactly the range it mapped.", "quantifier": "all sizes, page sizes and addresses chosen by the kernel", "why_tests_cant": "The alignment padding depends on the address the kernel chooses; ranges left over stay silent.", "anchors": ["src/rpmalloc.c: _rpmalloc_mmap_os, _rpmalloc_unmap_os, _rpmalloc_allocate_huge, _rpmalloc_deallocate_huge"]}
{"id": "C130", "title": "The usable size reaches exactly to the end of the block", "statement": "For every pointer into a block the reported usable size is the number of bytes up to its end, and freeing an aligned pointer frees the whole block.", "quantifier": "all blocks of all kinds, all pointers into them", "why_tests_cant": "Off-by-header errors show only for particular offsets and kinds of blocks.", "anchors": ["src/rpmalloc.c: _rpmalloc_usable_size, _rpmalloc_deallocate_small_or_medium"]}
{"id": "C131", "title": "realloc keeps the contents", "statement": "After a successful realloc the block has room for the new size and begins with the old contents, as many bytes as both hold; after a failing one memory is unchanged; nothing else changes.", "quantifier": "all blocks, pointers into them, sizes below 2^63 and contents", "why_tests_cant": "The cases depend on where in the block the pointer is and on the ratio of sizes.", "anchors": ["src/rpmalloc.c: _rpmalloc_reallocate, _rpmalloc_huge_alignment_reallocate"]}
{"id": "C132", "title": "No two live blocks overlap", "statement": "Blocks handed out and not freed yet never overlap; each lies in a mapped span behind its header and is aligned to 16 bytes.", "quantifier": "all sequences of requests and frees, by the owner of the heap and other threads, of any number of size classes and spans", "why_tests_cant": "An overlap needs a particular order of frees by owner and others, and shows up much later as corruption.", "anchors": ["src/rpmalloc.c: _rpmalloc_allocate_from_heap_fallback, _rpmalloc_span_initialize_new, free_list_partial_init, _rpmalloc_deallocate_direct_small_or_medium, _rpmalloc_deallocate_defer_small_or_medium"]}
{"id": "C133", "title": "Aligned requests are aligned and large enough", "statement": "What an aligned request hands out is a multiple of the alignment, followed by the bytes asked for up to the end of its block, can be freed as a whole, and memory mapped in vain during the call is unmapped.", "quantifier": "all alignments and sizes, all addresses chosen by the kernel", "why_tests_cant": "The retries depend on the addresses the kernel chooses.", "anchors": ["src/rpmalloc.c: _rpmalloc_aligned_allocate"]}
{"id": "C134", "title": "The allocator's lists and counters stay consistent", "statement": "As long as only live blocks are freed, each once, no counter of a span becomes negative and no span is removed from a list it is not in.", "quantifier": "all sequences of requests, frees by the owner and by others, collecting and unmapping", "why_tests_cant": "The counters disagree only after particular interleavings of direct and deferred frees.", "anchors": ["src/rpmalloc.c: _rpmalloc_deallocate_direct_small_or_medium, _rpmalloc_heap_cache_adopt_deferred, _rpmalloc_span_extract_free_list_deferred"]}
{"id": "C135", "title": "Freed memory is reused before new memory is taken", "statement": "A request takes a new span only if every block of the spans of its size is live or was freed by another thread and not collected yet; a span all of whose blocks were freed can be used for other sizes; a span kept for other uses has no live block.", "quantifier": "all sequences of requests and frees", "why_tests_cant": "Memory kept back shows only as growth over long runs.", "anchors": ["src/rpmalloc.c: _rpmalloc_allocate_from_heap_fallback, _rpmalloc_span_release_to_cache, _rpmalloc_heap_cache_adopt_deferred"]}
{"id": "C136", "title": "Memory ranges handed out by the allocator's mapping layer never overlap", "statement": "The ranges of spans which are in use, cached or hold heaps lie within memory that is mapped and not given back yet, begin at multiples of the span size, and no two of them overlap.", "quantifier": "all sequences of requests, of carvings from reserves, of reserves made from freed ranges, and of unmapping, on any number of heaps; all page sizes from 8 bytes to 64 KiB and all addresses the kernel may choose", "why_tests_cant": "Reserves are split and shared between heaps and between the heap and the common reserve; an overlap shows only as corruption of a block of another thread.", "anchors": ["src/rpmalloc.c: _rpmalloc_span_map, _rpmalloc_span_map_from_reserve, _rpmalloc_span_map_aligned_count, _rpmalloc_heap_set_reserved_spans, _rpmalloc_heap_allocate_new, _rpmalloc_deallocate_large"]}
{"id": "C137", "title": "A mapped range is given back to the system exactly once, and only when nothing of it is used", "statement": "Unmapping a range of spans which is in use never fails an assertion; a mapped range is given back to the system if and only if no part of it is in use or reserved, with the address and size with which it was mapped, and once.", "quantifier": "all sequences of mapping, carving, reserving and unmapping in any order", "why_tests_cant": "The counter of remaining spans is split between master and subspans, which are freed in any order; giving back early or twice needs particular orders.", "anchors": ["src/rpmalloc.c: _rpmalloc_span_unmap, _rpmalloc_span_map_aligned_count, _rpmalloc_deallocate_large"]}
{"id": "C138", "title": "Freed spans go through the allocator's caches without being lost or handed out twice", "statement": "Every range of spans that was mapped is at any time in exactly one place (in use, in one of the caches, freed by another thread and not collected yet, or unmapped); no cache is filled beyond its array; a request is given a range that is not in use, with as many spans as asked for or at most half as many more; a single span that is cached is used before new memory is mapped; a thread that ends leaves nothing in its own arrays.", "quantifier": "all sequences of requests, frees by owners and others, ends of threads and emptying of the common cache, on any number of heaps, with any choice of spans that must be kept", "why_tests_cant": "The caches overflow into each other only after hundreds of spans, and the order of kept, replaced and unmapped spans depends on which other spans are in use.", "anchors": ["src/rpmalloc.c: _rpmalloc_heap_cache_insert, _rpmalloc_global_cache_insert_spans, _rpmalloc_global_cache_extract_spans, _rpmalloc_heap_cache_adopt_deferred, _rpmalloc_heap_extract_new_span, _rpmalloc_span_release_to_cache, _rpmalloc_heap_release"]}
{"id": "C139", "title": "A heap is worked on by at most one thread", "statement": "While threads start, end and are started again, no two of them ever work with the same heap; a block is put back into the lists of a heap directly only by the thread that works with this heap; and a heap whose thread ended is never lost: it is given to a thread that starts later before new ones are made.", "quantifier": "all interleavings of any number of threads that acquire heaps, release them and free blocks of any heap, at the granularity of the lock and the list of unused heaps", "why_tests_cant": "Two threads obtaining the same heap needs both to be inside the same few instructions; the result is corrupted lists much later.", "anchors": ["src/rpmalloc.c: _rpmalloc_heap_allocate, _rpmalloc_heap_extract_orphan, _rpmalloc_heap_orphan, _rpmalloc_heap_release, rpmalloc_thread_initialize, rpmalloc_thread_finalize, get_thread_heap, _memory_global_lock"]}
{"id": "C140", "title": "Blocks of one span can be freed by several threads at the same time", "statement": "While the owner allocates from a span and frees blocks of it, any number of other threads may free other blocks of the same span at any moment: a block which the program has is never in a list of free blocks or handed out a second time, no counter becomes negative, the span is given back only when no block of it is in use, nobody touches it afterwards, and if all blocks were freed by others exactly one thread hands the span over.", "quantifier": "all interleavings of the owner and any number of other threads, for spans of any number of blocks", "why_tests_cant": "The window between incrementing the length of the deferred list and storing its head is two instructions long.", "anchors": ["src/rpmalloc.c: _rpmalloc_deallocate_defer_small_or_medium, _rpmalloc_deallocate_direct_small_or_medium, _rpmalloc_span_extract_free_list_deferred, _rpmalloc_allocate_from_heap_fallback, _rpmalloc_span_initialize_new"]}
{"id": "C141", "title": "Spans freed by other threads are collected exactly once", "statement": "Any number of threads may hand spans over to a heap while its owner collects them, and collected spans may be used and handed over again at once: every span is collected exactly once for each time it was handed over, no link of a span in use is followed, and none is lost.", "quantifier": "all interleavings of any number of pushing threads and collections, any number of spans, including spans handed over again while another thread is between reading the head and replacing it (ABA)", "why_tests_cant": "An ABA situation needs a thread to stop between two instructions while the same span is collected, used, freed and pushed again.", "anchors": ["src/rpmalloc.c: _rpmalloc_deallocate_defer_free_span, _rpmalloc_heap_cache_adopt_deferred"]}
{"id": "C142", "title": "The file names of certificate, request and key belong together", "statement": "Whatever combination of use_certificate, use_secure_client, default_cert_path and of the functions returning file names was called before, the names of the certificate, the request and the private key are the host name with .crt, .csr and .key in one common directory; none of them is cut off and no two are the same file.", "quantifier": "all sequences of calls, all directories of any length, all host names shorter than MAXHOSTNAMELEN", "why_tests_cant": "The names are computed lazily in static buffers, so the result depends on the order of all calls in the process.", "anchors": ["src/async_tls.c: cert_names_setup, cert_file, csr_file, pkey_file, default_cert_path, default_cert_file"]}
{"id": "C143", "title": "The directory given to use_certificate is the one used", "statement": "After use_certificate(path) the certificate and the private key are read from the given directory.", "quantifier": "all paths and all sequences of earlier calls", "why_tests_cant": "Tests choose a directory once per process, and only a later or differently ordered call shows what happens.", "anchors": ["src/async_tls.c: use_certificate, default_cert_file, default_cert_path"]}
{"id": "C144", "title": "Self-signed certificates are made when needed and never over files of the user", "statement": "After use_certificate(NULL) a certificate and a key exist under the names used for connections, and no call overwrites a certificate or a key the user put there.", "quantifier": "all states of the file system, all earlier calls in this process and in earlier processes running in the same directory", "why_tests_cant": "The outcome depends on files left by earlier runs of other programs; tests run in a fresh directory.", "anchors": ["src/async_tls.c: use_certificate, use_secure_client, x509_self_export, default_cert_file, create_self_ex"]}
{"id": "C145", "title": "The table of sockets of an epoll set behaves as a map (Windows)", "statement": "In the Windows version an epoll set finds a socket exactly if it was added and not deleted since, adding a socket that is there fails and changes nothing, and closing the set meets every socket. Whatever the order of additions, deletions and searches, and whatever the memory of new entries held, no null pointer is followed.", "quantifier": "for all memories, all sequences of additions of entries not in the tree, deletions of entries in it and searches, all keys", "why_tests_cant": "A red-black tree has many rebalancing cases; which are reached depends on the order of operations, and there are infinitely many orders.", "anchors": ["src/wepoll.c: tree_add, tree_del, tree_find, tree_root, tree__rotate_left, tree__rotate_right, TREE__REBALANCE_AFTER_INSERT, TREE__REBALANCE_AFTER_REMOVE, port_register_socket, port_find_socket"]}
{"id": "C146", "title": "Finding a socket of an epoll set takes logarithmic time (Windows)", "statement": "After any sequence of additions and deletions, finding a socket among n sockets looks at no more than 2*log2(n+1) entries.", "quantifier": "for all sequences of operations and all keys", "why_tests_cant": "A test measures some orders of insertion and deletion; the worst case is over all of them.", "anchors": ["src/wepoll.c: tree_find, tree_add, tree_del"]}
{"id": "C147", "title": "The queues of an epoll set keep every element once and in order (Windows)", "statement": "Elements added to the start or the end of a queue, moved to the start or end of the same or another queue, or removed, are afterwards exactly where a list would have them: the first and last element, emptiness, and being in a queue are told correctly, walking the links forwards and backwards meets all elements, and other queues are not affected.", "quantifier": "for all numbers of queues, all sequences of permitted operations, all contents of uninitialised elements", "why_tests_cant": "Intrusive rings go wrong in corner cases (one element, neighbours, moving within the same queue); all orders of operations must be right.", "anchors": ["src/wepoll.c: queue_init, queue_node_init, queue__detach_node, queue_first, queue_last, queue_prepend, queue_append, queue_move_to_start, queue_move_to_end, queue_remove, queue_is_empty, queue_is_enqueued"]}
{"id": "C148", "title": "Memory of sockets outlives their poll requests (Windows)", "statement": "Whatever is done with an epoll set, no block of a socket is used after it was freed, the block of a poll request that is outstanding is not freed, at most one request is outstanding for a block, a removed socket's block is freed when its last request ends, and closing the set frees every block and every driver handle.", "quantifier": "for all sequences of add, modify, delete, waits and packets by any number of threads, all answers of the system, all moments of closing", "why_tests_cant": "The outcome depends on when the asynchronous requests end relative to deletions, modifications and closing; tests meet few of these orders and a write into freed memory is rarely noticed.", "anchors": ["src/wepoll.c: sock_new, sock__delete, sock_force_delete, sock_update, sock_feed_event, port_delete, port__update_events, port__feed_events"]}
{"id": "C149", "title": "epoll_wait reports what was registered, and only that (Windows)", "statement": "epoll_ctl and epoll_wait keep a table of registrations: adding fails for a registered socket, changing and deleting fail for one that is not; an answer has at most one event for a socket, with the data of its registration and only registered events; if the driver tells a registered event, it is reported; a registration with EPOLLONESHOT is reported at most once until it is set anew.", "quantifier": "for all sequences of operations of all threads, all packets and all answers of the system, all masks and data", "why_tests_cant": "Stale packets of removed and newly added sockets, changed masks while a request is outstanding and one-time registrations interleave in unboundedly many ways.", "anchors": ["src/wepoll.c: port_ctl, port_wait, sock_set_event, sock_feed_event, port__feed_events"]}
{"id": "C150", "title": "While a thread waits, every registered socket is watched (Windows)", "statement": "At any time when a thread waits in epoll_wait, every registered socket has an outstanding poll request which asks for all registered events, or which was cancelled in order to be made anew; this also holds for sockets added or changed by other threads during the wait.", "quantifier": "for all sequences of operations by any number of threads, all packets, all moments", "why_tests_cant": "A socket that is not watched shows only as an event that never comes, under particular interleavings.", "anchors": ["src/wepoll.c: sock_update, port__update_events, port__update_events_if_polling, port__poll, port_request_socket_update"]}
{"id": "C151", "title": "Driver events and epoll events correspond exactly (Windows)", "statement": "The driver is asked for an event if and only if an epoll event that it means is registered, a user is told exactly the epoll events which the driver events mean, and an answer of the driver with events it was asked for always has a registered event, so waiting does not spin.", "quantifier": "for all masks that can be registered and all sets of driver events", "why_tests_cant": "There are 2^32 masks and 2^9 driver events; a missing case shows as a hang or as a busy loop.", "anchors": ["src/wepoll.c: sock__epoll_events_to_afd_events, sock__afd_events_to_epoll_events, sock_set_event"]}
{"id": "C152", "title": "Driver handles are shared by up to 32 sockets and not hoarded (Windows)", "statement": "Every socket of an epoll set uses an open driver handle, no handle serves more than 32 sockets, and with never more than M sockets there are at most M/32 + 1 handles.", "quantifier": "for all sequences of operations, all M, all failures of allocation", "why_tests_cant": "The order of the queue of groups, on which the search for a free one relies, must hold after every sequence of acquiring and releasing.", "anchors": ["src/wepoll.c: poll_group_acquire, poll_group_release, poll_group__new"]}
{"id": "C153", "title": "Closing an epoll handle on Windows while other threads use it", "statement": "On Windows, whatever the threads of a program do with epoll handles, and in whatever order: a handle's memory is not freed while an epoll_ctl or epoll_wait of another thread uses it; once a close has begun no call finds the handle; only one of several closes of a handle succeeds; a close waits for the calls that are inside and then returns; no internal assertion fails.", "quantifier": "for all numbers of threads below 2^28, all schedules of their atomic steps, all handles the system gives out that are not open", "why_tests_cant": "A use after free would need one particular interleaving of closing and waiting threads; a test runs a few of them.", "anchors": ["src/wepoll.c:reflock_ref", "src/wepoll.c:reflock_unref", "src/wepoll.c:reflock_unref_and_destroy", "src/wepoll.c:ts_tree_del_and_ref", "src/wepoll.c:ts_tree_find_and_ref", "src/wepoll.c:epoll_close"]}
{"id": "C154", "title": "epoll_pwait2 on Windows waits for the time asked for", "statement": "On Windows, epoll_pwait2 with a time in seconds and nanoseconds waits that long, rounded up to a whole millisecond, and without a limit if no time is given.", "quantifier": "for all seconds and nanoseconds of a timespec", "why_tests_cant": "A test tries a few times, and a wait that is too long only shows when no event comes.", "anchors": ["src/wepoll.c:epoll_pwait2"]}
{"id": "C155", "title": "epoll_wait on Windows keeps its time limit", "statement": "On Windows, epoll_wait with a limit returns by the limit however many completions without an event come in, reports a time-out (0) only when the limit is reached, polls once for the limit 0 and has no limit for a negative one; it asks for no more completions than there is room for; a time-out is reported as 0 and an error as -1.", "quantifier": "for all limits, all sequences of answers of the system, all clocks that do not go back", "why_tests_cant": "The order in which stale completions, time and errors arrive is up to the system and to other threads.", "anchors": ["src/wepoll.c:port_wait", "src/wepoll.c:port__poll"]}
{"id": "C156", "title": "A task goes on where it stopped (64 bit System V)", "statement": "When a thread switches to a task that stopped earlier, the task goes on as if its own call had returned: at its return address, with its stack pointer and the values of all registers that a function has to preserve. The switch writes no memory but that for the registers of the task that stops.", "quantifier": "for all numbers of tasks, all sequences of switches, all register and memory contents, whatever the tasks do between the switches except to the memory of stopped tasks", "why_tests_cant": "A register that is not preserved matters only if the compiler happens to keep a value in it across the call; a test sees one allocation of registers.", "anchors": ["src/asm.c: coro_swap_function (x86_64), co_switch; src/events_internal.h: struct tasks_s"]}
{"id": "C157", "title": "A task finds the floating point settings it had (64 bit System V)", "statement": "A call that switches to other tasks preserves the control bits of the floating point units (rounding, exceptions), as every function has to by the System V rules. False of the code: the settings of the last task that ran remain.", "quantifier": "for all sequences of switches and all settings", "why_tests_cant": "It shows only if a task changes the rounding and another computes afterwards with results that depend on it.", "anchors": ["src/asm.c: coro_swap_function (x86_64)"]}
{"id": "C158", "title": "A task goes on where it stopped (32 bit x86)", "statement": "As C156 for 32 bit machines: return address, stack pointer and ebx, ebp, esi, edi of the task are restored; the switch writes only the 20 bytes for registers.", "quantifier": "for all numbers of tasks, all sequences of switches, all register and memory contents", "why_tests_cant": "As for C156; the code is given as bytes, so an error in one byte is not seen by reading.", "anchors": ["src/asm.c: coro_swap_function (i386)"]}
{"id": "C159", "title": "A task goes on where it stopped (64 bit Windows)", "statement": "As C156 by the rules of 64 bit Windows: rbx, rbp, rsi, rdi, r12 to r15, the vector registers 6 to 15 and the bounds of the stack known to the system are those of the task. Handles that are not divisible by 16 make the switch fail.", "quantifier": "for all numbers of tasks, all sequences of switches, all register and memory contents", "why_tests_cant": "As for C156; the bounds of the stack matter only when the system handles an exception or grows the stack.", "anchors": ["src/asm.c: coro_swap_function (_WIN32 x86_64)"]}
{"id": "C160", "title": "A task goes on where it stopped (64 bit ARM)", "statement": "As C156 by the rules for 64 bit ARM: return address, stack pointer, registers 19 to 29 and the lower halves of the floating point registers 8 to 15 are those of the task.", "quantifier": "for all numbers of tasks, all sequences of switches, all register and memory contents", "why_tests_cant": "As for C156.", "anchors": ["src/asm.c: coro_swap_function (__aarch64__)"]}
{"id": "C161", "title": "A switch leaves the rest of a task alone (Windows on ARM)", "statement": "On Windows for 64 bit ARM a switch writes only the memory for registers of the task that stops. False of the code: the bounds of the stack are stored over the next two fields of the task, so that the task is not recognised as one any more, and the first switch to a task sets wrong bounds.", "quantifier": "for all register and memory contents", "why_tests_cant": "The machine is rare, and the overwritten fields are read only by checks.", "anchors": ["src/asm.c: coro_swap_function, task_derive (__aarch64__ _WIN32); src/events_internal.h: struct tasks_s"]}
{"id": "C162", "title": "The first switch to a task starts its function", "statement": "The first switch to a task made by create_task runs its start function, with a stack aligned as for any call, the return address being that of task_done, the stack and 32 bytes above the return address within the memory of the task (on Windows with these bounds told to the system), and room for the stack of at least the size asked for (never less than 8 KiB) less 64 bytes above the task's own data.", "quantifier": "for all addresses and sizes of the memory, all sizes asked for, all states of the thread", "why_tests_cant": "Alignment errors show only in functions for which the compiler uses aligned vector stores; room is exceeded only by deep calls.", "anchors": ["src/asm.c: task_derive; src/events.c: create_task, task_awaitable, task_done"]}
{"id": "C163", "title": "task_done is entered as by a call", "statement": "When the start function of a task returns, task_done runs as if it had been called, in particular with a stack aligned by the rules. False of the code on x86: the alignment is off by one word.", "quantifier": "for all addresses and sizes of the memory of the task, whatever the task did", "why_tests_cant": "It depends on whether the compiler uses aligned vector stores in task_done or in a function it calls.", "anchors": ["src/asm.c: task_derive; src/events.c: task_done"]}
{"id": "C164", "title": "The last name of a Windows path", "statement": "basename returns the last name of a path: what follows the last separator (slash, backslash or the colon of a drive), ignoring separators at the end; the empty string if there are only separators. There is exactly one such name.", "quantifier": "for all paths", "why_tests_cant": "The scan has three states and treats drives, doubled separators and separators at the end apart; paths are unbounded.", "anchors": ["src/os_windows.c: basename"]}
{"id": "C165", "title": "The search in memory on Windows", "statement": "memmem never reads outside of the bytes it is given, returns the first place where the whole needle lies inside them, and nothing only if there is none; it agrees with the search that splitting of strings relies on.", "quantifier": "for all buffers, ranges inside them and non-empty needles", "why_tests_cant": "Partial matches at the end of the range would be read over the end only for particular contents.", "anchors": ["src/arrays.c: memmem"]}
{"id": "C166", "title": "The directory of a Windows path", "statement": "dirname returns the path without its last name, with its drive, and stays inside the buffer. False of the code: the drive is dropped, and for a name in the root written with a backslash it reads in front of the buffer.", "quantifier": "for all paths, drives and code pages", "why_tests_cant": "The read in front of the buffer has no effect that a test sees, and depends on what lies there.", "anchors": ["src/os_windows.c: dirname, IS_SLASH_P"]}
{"id": "C167", "title": "Positioned reads and writes on Windows", "statement": "pread and pwrite transfer the bytes at the given offset and leave the position of the descriptor alone, also if the transfer fails or another thread uses the descriptor. False of the code in the last two cases.", "quantifier": "for all files, positions, offsets, lengths and answers of the system", "why_tests_cant": "The wrong outcomes need a failing transfer or another thread between two calls.", "anchors": ["src/os_windows.c: pread, pwrite"]}
{"id": "C168", "title": "Sending a file on Windows", "statement": "sendfile sends the bytes from the offset on, once and in order, returns how many, and moves the offset on by that. False of the code: the offset is not moved, bytes that the receiver does not take at once are lost, and a NULL offset is read.", "quantifier": "for all files, offsets, lengths and answers of the system", "why_tests_cant": "Short writes happen only with a slow receiver.", "anchors": ["src/os_windows.c: sendfile"]}
{"id": "C169", "title": "Opening files on Windows", "statement": "open gives the access asked for, creates, refuses or empties the file as POSIX says for its flags. False of the code: a file opened for reading cannot be read, one opened with create is emptied, truncate fails.", "quantifier": "for all flags and all states of the file", "why_tests_cant": "There are many combinations of flags and states of the file.", "anchors": ["src/os_windows.c: os_open, _os_open"]}
{"id": "C170", "title": "Reads and writes on Windows reach what the descriptor stands for", "statement": "os_read and os_write go to the socket, the pseudo descriptor or the file of the C library that the number stands for, and a new pseudo descriptor gets a free number. False of the code: outside of the table it reads out of bounds, without a loop writes go elsewhere, and the first pseudo descriptor takes the number of standard output.", "quantifier": "for all tables, numbers, sets of sockets and numbers of loops", "why_tests_cant": "The numbers of sockets and handles are chosen by the system.", "anchors": ["src/os_windows.c: os_read, os_write, events_new_fd, events_get_fd"]}
{"id": "C171", "title": "Closing a descriptor on Windows closes what it stands for", "statement": "os_close closes the handle of a pseudo descriptor once, frees its entry and no other, and reports success. False of the code: the socket of a socket entry is never closed, a pipe whose other end is gone stays open, some entries abort the program.", "quantifier": "for all tables, numbers and answers of the system", "why_tests_cant": "Leaks are not visible in single runs.", "anchors": ["src/os_windows.c: os_close, events_free_fd"]}
{"id": "C172", "title": "Changes of directories on Windows are all reported", "statement": "Every change that the system reports for a watched directory reaches the user's function, and inotify_next walks over the records of a report. False of the code: only the first record of a report is used, and inotify_next goes to the wrong place.", "quantifier": "for all sequences of reports and all sizes of records", "why_tests_cant": "Reports with several records appear only under load.", "anchors": ["src/os_windows.c: inotify_next, inotify_handler"]}
{"id": "C173", "title": "Output of a child process on Windows arrives unchanged", "statement": "The user's function is called once for each chunk of output read from a child process, in order, with the bytes of that chunk. False of the code: the chunks share one buffer, so a later chunk overwrites an earlier one that was not fetched.", "quantifier": "for all chunks and all interleavings of the reading thread and the loop", "why_tests_cant": "It depends on how the reading thread and the loop interleave.", "anchors": ["src/os_windows.c: spawn_io_thread", "src/async_io.c: spawn_io"]}
{"id": "C174", "title": "Several child processes at once on Windows", "statement": "Child processes with a function for their output can run at the same time. False of the code: the pipes have fixed names.", "quantifier": "for all sets of open pipes", "why_tests_cant": "Whether two children overlap depends on timing.", "anchors": ["src/os_windows.c: os_create_pipe", "src/async_io.c: spawn_ex"]}
{"id": "C175", "title": "The two sockets of a pair are connected to each other on Windows", "statement": "When socketpair succeeds, both sockets are valid and connected to each other, whoever else connects to the listening socket meanwhile; a stranger's connection makes the call fail.", "quantifier": "for all answers of the system and all addresses", "why_tests_cant": "Another process would have to connect in the short time the listener is open.", "anchors": ["src/os_windows.c: socketpair"]}
{"id": "C176", "title": "A pair of sockets that fails leaves nothing open on Windows", "statement": "A call of socketpair that fails closes each socket that it opened exactly once, a successful one closes only the listener. False of the code: a failure behind the accepted connection closes the listener twice.", "quantifier": "for all answers of the system", "why_tests_cant": "The second close hurts only if another thread got the same number in between.", "anchors": ["src/os_windows.c: socketpair"]}
{"id": "C177", "title": "Pipes on Windows fit the array of the caller", "statement": "os_pipe and pipe2 store two descriptors into the array of two int and apply the flags to both. False of the code on 64 bit Windows: 16 bytes are stored into 8, and pipe2 takes descriptor 0 for the second.", "quantifier": "for all sockets and contents of the array", "why_tests_cant": "What lies behind the array is chosen by the compiler.", "anchors": ["src/os_windows.c: os_pipe, pipe2", "include/async_io.h: _2socket"]}
{"id": "C178", "title": "Modified files in a watched directory are reported on BSD and macOS", "statement": "When files of a watched directory are changed and none is added or removed, each event calls the user's function with one changed file, as modified, in the order of the directory, each change once.", "quantifier": "for all directories, all sets of changed files, all earlier states of the watch", "why_tests_cant": "The kernel says only that the directory changed; which file is found depends on the order of the directory and on earlier events.", "anchors": ["src/os_unix.c: inotify_update, inotify_handler, inotify_task"]}
{"id": "C179", "title": "Removed files in a watched directory are reported on BSD and macOS", "statement": "When a file of a watched directory is removed, the user's function is called with it, as removed. False of the code: after an earlier removal the last listed file is missed and a null pointer passed on.", "quantifier": "for all directories and places of the file in them", "why_tests_cant": "It depends on the order in which the file system lists the directory and on the event before.", "anchors": ["src/os_unix.c: inotify_update, inotify_handler, inotify_task"]}
{"id": "C180", "title": "New files in a watched directory are reported on BSD and macOS", "statement": "When a file is added to a watched directory, the user's function is called with it, as added, once. False of the code: the name passed on is in freed memory, a file listed last is missed, and after an addition other files are taken for new.", "quantifier": "for all directories and places of the file in them", "why_tests_cant": "Reading memory behind closedir often gives the right bytes by chance.", "anchors": ["src/os_unix.c: inotify_update, inotify_handler, inotify_task"]}
{"id": "C181", "title": "The loop of tasks ends when all tasks have ended", "statement": "async_run returns exactly when every task that was started on the thread has ended. False of the code: the end of tasks_wait or waitfor lowers the number of tasks once more, unless a sleeping member was met; from then on the loop either stops with an unfinished task or never.", "quantifier": "for all programs: every sequence of turns in which tasks start others, sleep, suspend, wait for groups and end", "why_tests_cant": "The tests of groups let their members sleep, which hides it; in general any interleaving has to be looked at.", "anchors": ["src/events.c: async_run, tasks_schedulering, task_push, tasks_wait, waitfor, task_wait_system, add_timeout"]}
{"id": "C182", "title": "A pool thread serves every task that it is given", "statement": "As long as the pool is not told to stop, a pool thread goes on, and every task handed over to it gets its turn. False of the code: after a group posted to the thread has come to its end, the thread stops.", "quantifier": "for all infinite sequences of hand-overs and turns, whatever the tasks do", "why_tests_cant": "It is about all infinite executions, and tests end before a thread that stopped is missed.", "anchors": ["src/events.c: __tasks_pool_main, __tasks_pool_wrapper, __thrd_waitfor, task_take"]}
{"id": "C183", "title": "A barrier lets groups of threads through together", "statement": "With pthread_barrier_init(b, NULL, c), the calls of pthread_barrier_wait fall into groups of c in the order in which they are let in; no call returns before all c calls of its group have been made, the calls of a group are by different threads, and exactly one of each group returns PTHREAD_BARRIER_SERIAL_THREAD.", "quantifier": "for all counts c from 1 to 2^30, all sequences of calls, wake-ups (also without reason) and resumptions of any number of threads, any number of rounds", "why_tests_cant": "It is about every interleaving of threads that leave one round while others already enter the next.", "anchors": ["include/compat/pthread.h: pthread_barrier_init, pthread_barrier_wait"]}
{"id": "C184", "title": "Nobody is left behind at a barrier", "statement": "When all threads in a barrier sleep, fewer than c of them wait for their group and none waits to enter; a thread whose group is complete is awake and returns as soon as it gets the lock; pthread_barrier_destroy does not delete the barrier while a thread of a complete group is still in it.", "quantifier": "for all counts c from 1 to 2^30 and all sequences of calls, wake-ups and resumptions", "why_tests_cant": "A lost wake-up shows only in rare interleavings, and as a hang.", "anchors": ["include/compat/pthread.h: pthread_barrier_wait, pthread_barrier_destroy"]}
{"id": "C185", "title": "pthread_once runs its routine exactly once", "statement": "The routine comes to its end at most once and never runs in two threads at a time; a call returns only after it has come to its end; if the thread that runs it is cancelled, another caller runs it. False of the code if the routine ends its thread with pthread_exit: then no caller ever returns.", "quantifier": "for all interleavings of any number of callers, with cancellation at any step", "why_tests_cant": "It is about all interleavings, and the failing case is a hang of every caller.", "anchors": ["include/compat/pthread.h: pthread_once, _pthread_once_cleanup, pthread_exit"]}
{"id": "C186", "title": "A cancelled thread runs each cleanup handler once", "statement": "A thread that is cancelled, or that ends itself with pthread_exit, runs each cleanup handler that it has pushed exactly once, the last first, then the destructors of its values, and ends. False of the code: with more than one cancellation pending (of any threads) the handlers run again for each of them, and pthread_exit runs none.", "quantifier": "for all sequences of pushes, values, cancellations and cancellation points of any threads", "why_tests_cant": "It needs several cancellations in flight; one cancelled thread at a time works.", "anchors": ["include/compat/pthread.h: pthread_cancel, pthread_testcancel, _pthread_invoke_cancel, pthread_exit, _pthread_cleanup_dest"]}
{"id": "C187", "title": "A thread that has disabled cancellation is not cancelled", "statement": "While a thread has set PTHREAD_CANCEL_DISABLE, it does not end through pthread_cancel. False of the code if its type is asynchronous.", "quantifier": "for all sequences of operations of any threads", "why_tests_cant": "Any number of cancellations and cancellation points may come in any order.", "anchors": ["include/compat/pthread.h: pthread_cancel, pthread_testcancel, pthread_setcancelstate, pthread_setcanceltype"]}
{"id": "C188", "title": "Keys for thread-specific values are told apart", "statement": "pthread_key_create gives a key that is not in use, with memory at hand it succeeds until all numbers from 1 to 2^20 - 1 are in use, and pthread_key_delete gives back exactly its key and refuses numbers that are no keys. False of the code: after a first attempt that failed for want of memory the next one reads through NULL, and deleting the number one past the table writes behind it.", "quantifier": "for all histories of making, deleting and using keys by any threads, with memory failing anywhere", "why_tests_cant": "The table grows, is searched from a moving start and has entries that were never set; only an invariant covers all histories.", "anchors": ["include/compat/pthread.h: pthread_key_create, pthread_key_delete"]}
{"id": "C189", "title": "A thread reads the value it has set", "statement": "pthread_getspecific gives the value that the calling thread last set for the key, NULL if it has set none since the key was made; other threads and keys do not matter. False of the code for a key that reuses the number of a deleted one: it shows the old value.", "quantifier": "for all histories of any threads and keys", "why_tests_cant": "It depends on the whole history of the key's number.", "anchors": ["include/compat/pthread.h: pthread_getspecific, pthread_setspecific, pthread_key_create"]}
{"id": "C190", "title": "Destructors at the end of a thread", "statement": "At the end of a thread the destructor of each key for which the thread has a value is called with this value, once for each value, until no values are left or 256 rounds are over; nothing outside of memory is touched. False of the code: a destructor that makes or deletes a key waits for ever, and values of deleted keys are given to the destructor of a key that reuses the number.", "quantifier": "for all histories before, and all destructors that set any values again and again", "why_tests_cant": "Destructors may set further values, so the number of rounds is not bounded by the program text.", "anchors": ["include/compat/pthread.h: _pthread_cleanup_dest"]}
{"id": "C191", "title": "A thread's memory is not used after it is freed", "statement": "A thread made with the bundled POSIX threads may be joined or detached once, by another thread when its creation has returned or by itself at any time. Whatever the order in which the creating thread, the thread and the one that joins or detaches it go on, the thread's record is not used after it has been freed and not freed twice, its handle is not closed twice; join returns once the thread has ended, and gives what its function gave. False of the code: a thread that detaches itself before its creation has returned frees the record the creator then writes to.", "quantifier": "for all interleavings of the three threads, all results, created detached or not", "why_tests_cant": "The faulty orders need the new thread to run to its end between two instructions of its creator.", "anchors": ["include/compat/pthread.h: pthread_create, pthread_create_wrapper, pthread_join, pthread_detach"]}
{"id": "C192", "title": "A detached thread's memory is freed", "statement": "When a thread has ended and was detached, before or after its end, or when it could not be created, its record has been freed exactly once. False of the code: nothing frees the record if the thread was detached after its end, if it was created detached and ended before its creator had cleared the handle, or if the creation failed. True if the detaching was complete before the thread's function ended.", "quantifier": "for all interleavings and all that happens later", "why_tests_cant": "Lost memory shows nowhere, and the race is a few instructions wide.", "anchors": ["include/compat/pthread.h: pthread_create, pthread_create_wrapper, pthread_detach"]}
{"id": "C193", "title": "Attributes of threads read back", "statement": "The attributes detached, inherit-sched and scope of a thread attribute object take their two values and no others; each reads back what was set last legally, whatever was set for the others; a thread made with them begins with cancelling enabled and deferred. Setting the cancel state and the cancel type gives the old value and changes nothing else.", "quantifier": "for all sequences of settings with all 32-bit values", "why_tests_cant": "All are bits of one word; a wrong mask shows only in some combinations of values.", "anchors": ["include/compat/pthread.h: _pthread_set_state, _pthread_get_state, pthread_attr_setdetachstate, pthread_setcancelstate, pthread_setcanceltype"]}
{"id": "C194", "title": "Attributes of mutexes read back", "statement": "Type, sharing, protocol and priority ceiling of a mutex attribute object each accept their legal values, refuse others without effect, read back what was set, and do not change each other. False of the code: the three protocols and PTHREAD_PROCESS_PRIVATE are refused, other values are accepted as protocols and overwrite the type, negative ceilings do not read back.", "quantifier": "for all attribute words and all values", "why_tests_cant": "32-bit words and 32-bit values.", "anchors": ["include/compat/pthread.h: pthread_mutexattr_settype, pthread_mutexattr_setpshared, pthread_mutexattr_setprotocol, pthread_mutexattr_setprioceiling"]}
{"id": "C195", "title": "Waiting with a time limit", "statement": "A wait for a condition, a mutex or a read-write lock with a time limit tells ETIMEDOUT only when the limit has been reached (to the millisecond), and 0 only when it was woken before the limit or got the lock. False of the code for conditions: a wait of 2^32 milliseconds or more can time out 49 days early, one whose low 32 bits are all ones has no limit at all, and a limit before 1970 counts as far in the future.", "quantifier": "for all limits, clocks, wake-ups and results of tries", "why_tests_cant": "Takes 49 days, and the clock of the machine.", "anchors": ["include/compat/pthread.h: pthread_cond_timedwait, pthread_mutex_timedlock, pthread_rwlock_timedrdlock, pthread_rwlock_timedwrlock, _pthread_rel_time_in_ms"]}
{"id": "C196", "title": "Reading a directory on Windows", "statement": "opendir succeeds exactly if the search finds an entry. readdir then gives the entries of the listing each once in order and NULL for ever after; rewinddir starts with a new listing. Search handles are used only while open, and after closedir exactly the searches of others are open.", "quantifier": "for all listings, other open searches and sequences of readdir and rewinddir", "why_tests_cant": "Any sequence of calls, and the leak or reuse of a handle is not seen from outside.", "anchors": ["include/compat/dirent_msvc.h: opendir, readdir, rewinddir, closedir, dirent_first, dirent_next"]}
{"id": "C197", "title": "The search pattern of a directory on Windows", "statement": "The pattern given to the search is the full path, a backslash unless the path ends in a separator, and a star; the buffer is written only inside. False of the code if the full path grew between the two calls that ask for it: uninitialised places beyond the path are read.", "quantifier": "for all paths and buffer sizes", "why_tests_cant": "Needs another thread changing the current directory between two calls.", "anchors": ["include/compat/dirent_msvc.h: _wopendir"]}
{"id": "C198", "title": "Watching a directory watches all directories below", "statement": "When a directory is watched, every directory below it that can be watched gets a watch under its full path, no other path does, and each only once. False of the code if a path fills the path buffer: the names below are cut off to the path of the directory itself and the recursion never ends.", "quantifier": "for all directory trees, names and depths", "why_tests_cant": "Trees of any shape, and paths of the length of the buffer.", "anchors": ["src/os_unix.c: inotify_recursive, __inotify_add_watch", "src/os_windows.c: inotify_directories"]}
{"id": "C199", "title": "Reallocating with an alignment", "statement": "Reallocating a block with an alignment gives a pointer with that alignment and room for the new size, holding what the old one held as far as both reach (unless told not to keep it); no memory outside the returned block changes. The old block is freed exactly if another one is returned; a failed call changes nothing.", "quantifier": "for all blocks and pointers into them, powers of two as alignments, sizes below 2^63, old sizes within the block, and flags", "why_tests_cant": "All sizes, alignments and flags, and interior pointers as aligned allocation hands out.", "anchors": ["src/rpmalloc.c: rpaligned_realloc, _rpmalloc_aligned_reallocate, _rpmalloc_reallocate"]}
{"id": "C200", "title": "Lists of spans with free blocks", "statement": "The lists of spans with free blocks, one for each size class, hold exactly the spans added and not taken or removed since, last added first; removing a span from the middle follows no null pointer and does not disturb any other list.", "quantifier": "for all sequences of additions, takes and removals over all lists, and any stale links in the headers", "why_tests_cant": "Needs all orders of adding and removing; a lost span shows only as growing memory.", "anchors": ["src/rpmalloc.c: _rpmalloc_span_double_link_list_add, _rpmalloc_span_double_link_list_pop_head, _rpmalloc_span_double_link_list_remove"]}
{"id": "C201", "title": "The memory of heaps is given back at the end", "statement": "When the allocator ends, the memory of a group of heaps is given back exactly when all heaps of the group have become empty, then or through blocks freed later, and only once; no heap is accessed whose memory was given back. False of the code if the allocator is started again before: freeing the last block of an old heap then follows a null pointer.", "quantifier": "for all numbers, groups and lists of heaps, any of them empty, and all later frees", "why_tests_cant": "Depends on how heaps are spread over groups and lists; a second unmapping or an access afterwards often goes unnoticed.", "anchors": ["src/rpmalloc.c: rpmalloc_finalize, _rpmalloc_heap_global_finalize, _rpmalloc_heap_unmap, _rpmalloc_heap_allocate_new"]}
{"id": "C202", "title": "events_now does not run backwards", "statement": "Later calls of events_now give times that are not earlier, and their difference is the time elapsed between them in nanoseconds. False of the code on Windows from 2^63/10^9 counts of the performance counter on (after 923 seconds of running time at the usual ten million counts a second): the product overflows. On Linux it jumps if the monotonic clock fails once.", "quantifier": "for all readings of the clocks and all counter frequencies", "why_tests_cant": "Needs a machine that has been running for long, and all readings.", "anchors": ["src/events.c: events_now"]}
{"id": "C203", "title": "The clock of timers and delays is the time of day", "statement": "The clock which timers and delays go by reads the nanoseconds since 1970, exact to the microsecond (to the millisecond on Windows). False of the code on Windows from 2038 to 2106: it is then 448 years ahead.", "quantifier": "for all times of day up to the year 2554", "why_tests_cant": "All times of day, and dates in the future.", "anchors": ["src/events.c: events_timeofday, delay, events_actor"]}
{"id": "C204", "title": "An actor is called soon after it is due", "statement": "In a loop that keeps calling events_once(loop, n), an actor set for some milliseconds is called in the first round that ends at or after the time it is due, at most the time of one round late, whatever other actors are due.", "quantifier": "all lists of actors, all waits, all sequences of rounds with descriptors becoming ready at any time", "why_tests_cant": "The delay depends on how many actors are due and on when descriptors become ready; a test sees one schedule.", "anchors": ["src/events.c:events_once", "src/events.c:events_execute", "src/epoll.c:events_poll_once_internal"]}
{"id": "C205", "title": "A loop with actors ends when all have been called", "statement": "while (events_is_running(loop)) events_once(loop, n) with actors that set no further ones ends; every actor has then been called exactly once, in the order in which they are due, and none early.", "quantifier": "all lists of actors, all non-negative waits, all behaviours of descriptors and tasks", "why_tests_cant": "Termination for every number of actors and every timing of the rounds.", "anchors": ["src/events.c:events_once", "src/events.c:events_is_running", "src/events.c:events_execute"]}
{"id": "C206", "title": "A loop is running while something is registered with it", "statement": "events_is_running(loop) is true exactly while descriptors, actors or signals are registered with the loop or the thread has tasks, and events_once returns 0 only if nothing is active; creating and destroying other loops does not matter.", "quantifier": "all threads with any number of loops and registrations", "why_tests_cant": "Interplay of several loops on one thread and of all kinds of registrations.", "anchors": ["src/events.c:events_is_running", "src/events.c:events_once", "src/epoll.c:events_destroy"]}
{"id": "C207", "title": "waitpid on Windows names the child that ended", "statement": "When waitpid (or wait) of the compatibility header returns a positive value, that value is the id of a process the caller started (the one asked for, if one was), the process has ended, and the status holds the low byte of its exit code. False of the code: the value returned is the id of the parent, never the id asked for, and with an id given any process of the machine is waited for; the status is right.", "quantifier": "all process lists, process ids, options and exit codes", "why_tests_cant": "The status is right and a test that compares the value with -1 only passes; which other processes run cannot be set up in a test.", "anchors": ["include/compat/wait.h:__waitpid_internal", "include/compat/wait.h:waitpid", "include/compat/wait.h:wait"]}
{"id": "C208", "title": "Asking whether a child has ended uses up nothing", "statement": "A call of waitpid with WNOHANG leaves the caller with the handles it had before. False of the code: while the process runs every call keeps two handles open for ever; calls that report or fail close what they opened.", "quantifier": "all process lists and any number of calls", "why_tests_cant": "The loss shows only after very many calls.", "anchors": ["include/compat/wait.h:__waitpid_internal"]}
{"id": "C209", "title": "wait on Windows returns when any child has ended", "statement": "wait returns as soon as one of the children has ended, and fails with ECHILD exactly when there are no children. False of the code: only the child that is listed first is looked at; the second half holds.", "quantifier": "all process lists, in any order", "why_tests_cant": "With one child there is no difference; the order of the list is up to the system.", "anchors": ["include/compat/wait.h:__waitpid_internal", "include/compat/wait.h:__filter_anychild", "include/compat/wait.h:wait"]}
{"id": "C210", "title": "Watching directories on Windows uses up nothing", "statement": "After watching directories and closing the monitor the pseudo descriptors and handles are as they were. False of the code: the descriptor of every directory stays in use, so that the table of 256 runs full, and with several directories all handles but the last stay open; with one directory its handle is closed.", "quantifier": "all tables, all numbers of directories and of rounds", "why_tests_cant": "The table runs full only after very many rounds.", "anchors": ["src/os_windows.c:inotify_init", "src/os_windows.c:inotify_add_watch", "src/os_windows.c:inotify_close", "src/os_windows.c:events_new_fd", "src/events.c:events_watch", "src/events.c:events_del_watch"]}
{"id": "C211", "title": "Closing a directory monitor on Windows leaves other input and output alone", "statement": "Closing a monitor closes only handles that were opened for it. False of the code: a monitor to which no directory was added (the directory was missing, say) closes the completion port of the whole program; with a directory added it holds.", "quantifier": "all states of the table and all numbers of directories", "why_tests_cant": "Tests watch directories that exist; the damage shows in other files and pipes.", "anchors": ["src/os_windows.c:inotify_init", "src/os_windows.c:inotify_close", "src/os_windows.c:os_close"]}
{"id": "C212", "title": "Opening and closing a file on Windows uses up nothing", "statement": "After opening a file and closing it again, the table of pseudo descriptors and the objects of the system are as before, and this can be repeated for ever. False of the code: each new pseudo descriptor makes an event object that is never closed; the table entry and the handle of the file are given back.", "quantifier": "all tables and any number of rounds", "why_tests_cant": "The loss shows only after very many rounds.", "anchors": ["src/os_windows.c:events_new_fd", "src/os_windows.c:events_free_fd", "src/os_windows.c:os_close"]}
{"id": "C213", "title": "At the end of a thread on 32 bit Windows each thread-local value goes once to the destructor of its key", "statement": "When a thread ends, every value that is not NULL, of a key that has a destructor and was not freed, is passed to that destructor, once; no other destructor is called. False of the code when keys are freed (the destructor of the old key gets values of the new key with the same number) and for the library's own copy of this code, which nothing calls at the end of a thread; proved for the allocator's copy while no key is freed.", "quantifier": "all sizes of the table and all sequences of making keys, freeing them and setting values", "why_tests_cant": "Tests make few keys, free none, and run on 64 bit systems.", "anchors": ["src/os_windows.c:impl_tls_dtor_register", "src/os_windows.c:impl_tls_dtor_invoke", "src/os_windows.c:os_tls_alloc", "src/os_windows.c:os_tls_free", "src/rpmalloc.c:rpmalloc_tls_create"]}
{"id": "C214", "title": "Keys of thread-local storage can be made and freed any number of times", "statement": "As long as every key is freed again, making a key always succeeds on Windows. False of the code for keys with a destructor: the table of destructors never gives an entry back, so after as many rounds as it has entries every further request fails; proved for keys without a destructor.", "quantifier": "all numbers of rounds, all sizes of the table, all keys", "why_tests_cant": "Tests make fewer keys than the table has entries.", "anchors": ["src/os_windows.c:os_tls_alloc", "src/os_windows.c:os_tls_free", "src/os_windows.c:impl_tls_dtor_register"]}
{"id": "C215", "title": "A task can use as much stack as was asked for without its own record changing", "statement": "A task created with a stack of n bytes that uses n bytes of stack leaves the record the library keeps for it (state, results, saved context) unchanged. False of the code built for ucontext or setjmp, for every n: the memory given to the system as the stack of the task begins inside (or at the start of) that record; it holds for tasks that use less by the size of the context (or of the record) and the stack is always inside the block of the task.", "quantifier": "all sizes of stacks and of the structures of the machine", "why_tests_cant": "Tests run the assembly variant and never fill a stack.", "anchors": ["src/events.c:task_derive", "src/events.c:create_task"]}
{"id": "C216", "title": "The check of the stack tells exactly when too little is left", "statement": "The check with a number n returns exactly if at least 256 + n bytes of stack are left above the record of the task and the mark in the record is whole, and otherwise ends the program; if it returns, the next 256 + n bytes of stack do not touch the record. False of the code for n above 2^31 - 257 (the sum overflows); proved below. Negative n switch the reserve off.", "quantifier": "all positions of the stack, all n", "why_tests_cant": "A test meets a few depths of stack; being one byte off is not visible.", "anchors": ["src/events.c:tasks_stack_check"]}
{"id": "C217", "title": "Datagrams can be received in any task", "statement": "A call of udp_recv in a task changes only the stack of that task and the objects it is given. False of the code in every task made by async_task, launch, go, generator or for an accepted connection: the buffer of 48 KiB it keeps on the stack is larger than the whole block of the task, so that memory before the block is set to zero; proved for the main task and for tasks with a stack large enough.", "quantifier": "all tasks, sizes of structures, and amounts of stack in use", "why_tests_cant": "The tests receive in the main task, whose stack is six times as large; elsewhere the damage depends on what lies before the block.", "anchors": ["src/async_udp.c:udp_recv", "src/events.c:create_task", "src/events.c:async_task", "src/events.c:go", "src/events.c:launch"]}
{"id": "C218", "title": "Several threads can make tasks at the same time", "statement": "Whichever threads make tasks, and however their steps interleave: the program goes on, every task made can be run, and afterwards SIGUSR1 is handled by the program as before. False of the code where it makes tasks with setjmp (Linux on anything but x86): two threads can end the program, make a task without a context, or leave the handler of the library in place for good; proved for executions in which no two threads make tasks at once.", "quantifier": "all interleavings of all numbers of threads, all ways of handling the signal", "why_tests_cant": "The windows are a few system calls wide, and the tests run on x86, where no signal is used.", "anchors": ["src/events.c:task_derive", "src/events.c:_spring_board", "src/events_internal.h:USE_SJLJ"]}
{"id": "C219", "title": "Memory the library frees can be used again", "statement": "Every block of the allocator that is given to its free function goes back to the allocator. False of the code on 64 bit Windows: unless the record of the heap lies in the lowest 2 GiB of the address space nothing is ever freed, and a program which asks for a block and frees it over and over holds as many blocks as it ever asked for; proved for systems where long is as wide as a pointer.", "quantifier": "all blocks, states of the allocator, addresses of heaps, and lengths of the execution", "why_tests_cant": "Nothing is wrong with any result; the memory in use grows without bound only on one platform, depending on where the system maps memory.", "anchors": ["src/rpmalloc.c:rpmalloc_is_valid", "src/rpmalloc.c:rpfree", "src/events.c:events_init"]}
{"id": "C220", "title": "Formatted text is returned and freed with the task", "statement": "mem_printf returns the formatted text, which is freed when the task ends. False of the code: an empty text gives NULL and is not freed; and except on Windows the text belongs to the C library but is given to the allocator's own free function, which reads the word 64 bytes after the last multiple of 64 KiB before the text: if nothing is mapped there the program ends, if the word is not zero what lies there is taken for a record of the allocator, else the text is lost. Proved: text that is not empty is returned.", "quantifier": "all texts, addresses and contents of memory", "why_tests_cant": "What happens depends on where the C library has put the text, and on bytes of other blocks.", "anchors": ["src/arrays.c:mem_printf", "src/rpmalloc.c:rpfree", "src/rpmalloc.c:rpmalloc_is_valid"]}
{"id": "C221", "title": "TLS servers and clients use the name they are given", "statement": "A server with TLS binds to the host it is given, and a client wants to see the host it dials in the certificate; only for localhost, 127.0.0.1 and 0.0.0.0 the name of the machine takes its place. False of the code: every piece of the text localhost,127.0.0.1,0.0.0.0 is taken for the machine itself, among all IPv4 addresses 27.0.0.1 and 7.0.0.1 besides the two that are meant, and host names such as host or local; proved for all other hosts.", "quantifier": "all hosts, all names of the machine", "why_tests_cant": "Tests use a few hosts; the wrong ones are pieces of a literal.", "anchors": ["src/async_tls.c:tls_bind", "src/async_tls.c:tls_dial", "src/async_tls.c:tls_socket_set", "src/arrays.c:str_has"]}
{"id": "C222", "title": "A failed tls_bind or tls_dial leaves nothing open", "statement": "If tls_bind or tls_dial fails, the socket it has opened is closed, at the latest when the task ends; if tls_bind succeeds the server has its certificate, key and configuration and is closed when the task ends. False of the code: if the certificate or the key cannot be read the server goes on listening for good, and if the certificates of the authorities cannot be read the connection stays open; without memory for the configuration both use a NULL pointer. Proved for the other failures and for success.", "quantifier": "all results of the calls made", "why_tests_cant": "The failures need files to be missing or memory to run out at a certain moment, and the effect is a descriptor that nobody looks at.", "anchors": ["src/async_tls.c:tls_bind", "src/async_tls.c:tls_dial", "src/async_tls.c:tls_closer", "src/events.c:deferred"]}
{"id": "C223", "title": "Tasks and their deferred calls work at whatever address they are", "statement": "Wherever memory is mapped, a task counts as terminated exactly if it has halted, a spawned process as ended exactly if its task has, the deferred calls of a task are all made when it ends, the last one first, and its result is stored. False of the code: objects in the lowest 512 MiB, and with 32 bit pointers all objects in the upper half of the address space, are taken for invalid; there a running task counts as terminated, no deferred call is made and no result stored. Proved for addresses between 2^29 and half of the address space.", "quantifier": "all addresses, both widths of pointers, all lists of deferred calls", "why_tests_cant": "Addresses are chosen by the system; tests on 64 bit systems only see those between.", "anchors": ["src/arrays.c:is_ptr_usable", "src/events.c:task_is_terminated", "src/events.c:deferred_unwind", "src/events.c:tasks_result_set", "src/async_io.c:spawn_is_finish"]}
{"id": "C224", "title": "A parsed URI is freed completely", "statement": "uri_free frees every field and the record of a URI from parse_uri_ex, each once; and when parse_uri_ex returns NULL nothing it has allocated is left. False of the code: with a scheme that is not known, or without one, uri_free frees nothing, and a text that is rejected leaves all that was allocated; proved for the known schemes.", "quantifier": "all texts, all URIs", "why_tests_cant": "A leak is not seen in any result, and tests parse a few URIs only.", "anchors": ["src/arrays.c:uri_free", "src/arrays.c:parse_uri_ex", "src/arrays.c:scheme_type"]}
{"id": "C225", "title": "Threads making pseudo descriptors at the same time get different ones", "statement": "Whatever the schedule of the threads, two of them never hold the same pseudo descriptor, so that starting processes, making FIFOs and watching directories from several threads do not share one table entry. (Of the code this holds only while no two threads are between choosing and marking an entry, or while every call is made for a descriptor number within the table that no other thread uses; the fcntl record lock around the allocation belongs to the process and keeps no thread of it out, so two threads that make FIFOs at the same time share one entry and the first name is lost.)", "quantifier": "all states of the table, all numbers of threads, all schedules, all arguments", "why_tests_cant": "The window between choosing and marking an entry is a few instructions wide; a test hits it by chance only.", "anchors": ["src/os_unix.c:acquire_lock", "src/os_unix.c:release_lock", "src/os_unix.c:events_new_fd", "src/os_unix.c:os_mkfifo", "src/os_unix.c:events_pseudo_fd"]}
{"id": "C226", "title": "A program started on Windows has the environment it was given", "statement": "On Windows a program started with the environment \"Key1=Value1;Key2=Value2\" has exactly these assignments, in order. (Of the code this holds if every assignment is followed by a semicolon, as exec_addenv writes them, or if the text has an even number of bytes; with an odd number the system reads past the end of the block; two semicolons in a row drop all that follows; one assignment without semicolon is dropped.)", "quantifier": "all lists of assignments", "why_tests_cant": "Whether a read past the end of the block does harm depends on what lies behind it; texts of even length work.", "anchors": ["src/os_windows.c:exec_info", "src/os_windows.c:os_exec_child", "src/arrays.c:str_split_ex", "include/async_io.h:exec_info"]}
{"id": "C227", "title": "A program started on Windows is the one named and gets the arguments it was given", "statement": "On Windows exec starts the program named and passes exactly the arguments of the list \"arg1,arg2,arg3\". (Of the code this holds if name and arguments are single words; an argument with a space arrives as two, an empty one not at all, a space in the name moves all arguments by one, a name with .exe or .bat inside gets no .exe, and of a long name only 259 bytes are used.)", "quantifier": "all names and all lists of arguments without quotation marks", "why_tests_cant": "All names and arguments.", "anchors": ["src/os_windows.c:exec", "src/os_windows.c:os_exec_info", "src/arrays.c:str_swap_ex", "src/arrays.c:str_cat_ex", "include/async_io.h:exec"]}
{"id": "C228", "title": "Waiting for a process on Windows reports its own end and gives back what it used", "statement": "On Windows exec_wait returns 0 and the exit code exactly if the process has ended, leaves other processes alone, and after it the place of the process in the table can be used again. (Of the code the first part holds only as long as no process is waited for again after its end was reported: a second wait uses the closed handle, fails or reports and closes another process that got the same handle. The place is never given back: after 255 processes starting another writes in front of the table.)", "quantifier": "all histories of starting, ending and waiting, all handle numbers the system gives out", "why_tests_cant": "Needs the reuse of a handle number by the system, or 255 processes.", "anchors": ["src/os_windows.c:exec_wait", "src/os_windows.c:os_exec_info", "src/os_windows.c:exec_info", "src/os_windows.c:events_new_fd"]}
{"id": "C229", "title": "Descriptors of named pipes on Windows are independent", "statement": "On Windows open of the name of a pipe made by mkfifo gives a descriptor for the pipe of exactly that name, and opening and closing pipes leaves everything else that is open alone. (Of the code this holds only as long as no pipe is opened twice or again after closing: a second open always fails and closes the pipe of the first; a pipe that was opened and closed can never be opened again, and trying to closes whatever file or socket got its handle number meanwhile.)", "quantifier": "all histories of mkfifo, open, close and other files opened, all names, all handle numbers the system gives out", "why_tests_cant": "Needs the kernel's refusal to connect a handle to a completion port twice, and the reuse of a handle number, in every history.", "anchors": ["src/os_windows.c:os_mkfifo", "src/os_windows.c:os_open", "src/os_windows.c:os_accept_pipe", "src/os_windows.c:events_assign_fd", "src/os_windows.c:events_pseudo_fd", "src/os_windows.c:os_close"]}
{"id": "C230", "title": "What a job of the thread pool defers is called when the job ends", "statement": "Every function registered with defer or fence by a job run in the thread pool is called exactly once, newest first, when the job has ended, and a pool thread comes through any sequence of jobs. (Of the code this holds only for fence, and only in the first job of a thread that registers anything: what is registered with defer is never called; a later job that uses fence, or a job returning an array in a thread where nothing was registered, crashes.)", "quantifier": "all sequences of jobs, all sequences of registrations in each", "why_tests_cant": "Needs statements about every sequence of jobs of one pool thread, whose jobs are handed out by load.", "anchors": ["src/events.c:__future_wrapper", "src/events.c:deferred", "src/events.c:_defer_init", "src/except.c:scope_unwind", "src/except.c:fence", "src/except.c:get_scope"]}
{"id": "C231", "title": "What a program defers outside of tasks is called at the end of the process", "statement": "Every function registered with defer or fence outside of guard sections and tasks is called exactly once, newest first, at exit_scope or at the end of the process, and registering goes on to work after exit_scope. (Of the code this holds for the main thread until it first uses the event library; after that what is registered with defer is never called. After exit_scope the next fence is undefined, and the next defer too. If a thread that has registered something itself calls exit, nothing of the other threads is called; if one that has registered nothing calls it, only what the first thread to register anything registered.)", "quantifier": "all histories of defer, fence, exit_scope and uses of the event library in all threads", "why_tests_cant": "The effects come after the end of main; needs all orders of registering and using the library.", "anchors": ["src/except.c:scope_init", "src/except.c:scope_destroy", "src/except.c:exit_scope", "src/events.c:deferred", "src/events.c:active_task", "src/events.c:tasks_is_active"]}
{"id": "C232", "title": "Signals that arrive at the same time are each delivered", "statement": "Every signal given to the event loop that arrives is passed to its callback exactly once, also when several arrive at about the same time in different threads, and signal masks of threads stay as they were after callbacks and after adding signals.  (False of the code: a second signal that arrives while the handler of another one runs ends the process with exit(1), in any other thread and, before the mask is set, in the same one; two threads that add signals at the same time can leave one with the signal mask of the other; a signal that arrives in another thread while it is being added can be lost.)", "quantifier": "for any number of threads, all initial masks, all registered signals, and every interleaving of arrivals, handler steps and steps of adding signals", "why_tests_cant": "depends on where in a few instructions the kernel interrupts a thread", "anchors": ["src/os_unix.c: events_sig_handler, events_add_signal, events_sigblock, events_sigunblock, signal_running, events_siglock_all"]}
{"id": "C233", "title": "Event callbacks may yield and wait without disturbing tasks", "statement": "While tasks run, the scheduler calls the callbacks of the loop between two tasks; whatever the callbacks do, tasks get control exactly when they are to be run, and a task that waits for a descriptor or a time does not get control before that.  (False of the code if a callback calls yield, delay or async_wait: these act on the task that is to be run next and give control to the task that ran last, even if that one waits or has ended; every such call makes the scheduler fault, runs a waiting task, or leaves a task in the run queue that is not to be run.)", "quantifier": "for all states of the scheduler, all sequences of callbacks, and all ways the tasks go on", "why_tests_cant": "the result depends on which task ran last and what it does when it gets control too early", "anchors": ["src/events.c: tasks_schedulering, yield, delay, async_wait, task_switch, task_done, wait_cb"]}
{"id": "C234", "title": "What a callback defers is called when the callback ends", "statement": "A function given to defer by a task is called when the task ends, the last one first; one given to defer by an event callback is called when the callback ends.  (False of the code for callbacks: their deferred calls join the list of the task that is to be run next and are made when that task ends, if ever.)", "quantifier": "for all histories of rounds of the scheduler, callbacks and tasks", "why_tests_cant": "depends on which unrelated task is next in the run queue when the callback is called", "anchors": ["src/events.c: deferred, _defer_init, deferred_unwind, task_awaitable, tasks_schedulering"]}
{"id": "C235", "title": "An atomic operation touches its own object only (Microsoft's compiler)", "statement": "With Microsoft's compiler on 64-bit Windows, each atomic operation of the library's header, used on an atomic object, returns and stores what its name says and changes no byte outside the object (and, for a failed compare-and-exchange, outside the expected value); objects that lie next to each other do not disturb one another. This holds when the object has the size the operation was written for: 8 bytes for the plain operations, 4 for the ..._32 ones, 1 for flags. It is false for the plain operations on objects of 4 bytes such as atomic_int: a store or an and sets the four bytes after the object to 0, a counter that wraps carries into them, a load is 0 only if they are 0 too, and a compare-and-exchange fails because of them and then overwrites the variable after the expected value.", "quantifier": "all operations, operands, addresses and memory contents; all interleavings of any number of steps on any number of neighbouring objects", "why_tests_cant": "What lies after an atomic object depends on the program and on the layout the compiler picks; a test that declares one atomic variable sees correct values although a neighbour is overwritten.", "anchors": ["include/catomics.h: atomic_store_explicit, atomic_load_explicit, atomic_exchange_explicit, atomic_fetch_add_explicit, atomic_compare_exchange_strong_explicit (262-410)"]}
{"id": "C236", "title": "The key file and the certificate file belong together", "statement": "When x509_pkey_write returns true both files hold what was given; when x509_self_export returns true both files hold the key and the certificate of one new key pair. If no certificate could be made, both files are as before. It is false that a failed export leaves a pair in use intact: a certificate file that cannot be opened leaves the new key beside the old certificate, a key that cannot be written leaves a cut-off key beside a new certificate. It is false that x509_self_export writes the key and certificate it is given: it never does.", "quantifier": "all combinations of failing OpenSSL calls, all arguments, all contents of the two files before the call", "why_tests_cant": "The failures (full disk, unwritable file, failed key generation) have to be provoked inside OpenSSL, in every combination.", "anchors": ["src/async_tls.c: create_self_ex, generate_pkey_ex, thrd_worker_thread, x509_self_req, x509_self, x509_self_export, x509_pkey_write (366-482, 501-607)"]}
{"id": "C237", "title": "Making keys and certificates frees every object once", "statement": "x509_self_export frees every OpenSSL object it makes exactly once whichever call fails, and rsa_pkey returns a key exactly if everything worked and otherwise leaves nothing behind. This holds if the key object could be made and the key generation function does not free it on failure. It is false where that function does so (OpenSSL before 3.0): a failed generation frees the key twice, in both functions; and false when the key object could not be made at first: the key made inside is lost.", "quantifier": "all combinations of failing OpenSSL calls, both behaviours of the key generation function, all states before the call", "why_tests_cant": "Key generation does not fail on a healthy machine; a double free may go unnoticed when it does.", "anchors": ["src/async_tls.c: generate_pkey_ex, thrd_worker_thread, rsa_pkey (395-416, 434-499)"]}
{"id": "C238", "title": "The line printed after an OpenSSL failure shows that failure", "statement": "A line is printed exactly if there is an error, no error is printed twice, and the codes printed (other than 0) are errors that occurred, in their order. It is false that the line shows the error of the failure: one error prints the code 0, the first error of a failure is never the one printed, and errors beyond the second are kept and printed for later failures. Only when every failure adds exactly two errors does each line show its own failure.", "quantifier": "all histories of failures on a thread, each with any list of errors", "why_tests_cant": "The text goes to stderr and looks plausible; which error it shows depends on how many errors earlier calls left in the queue of the thread.", "anchors": ["src/async_tls.c: events_ssl_error (680-687)"]}
{"id": "C239", "title": "The functions given for the end of the program are called once", "statement": "When an exception that nobody catches ends the program, the function given for the end of the program (exception_terminate_func, or guard_terminate_func if set) is called exactly once, also if it throws itself, if signals arrive meanwhile or if the function for Ctrl-C throws; the function for Ctrl-C is called exactly if the exception is that of SIGINT, and once.  (The second half is false of the code: the note that there was a SIGINT is never cleared after a SIGINT was caught, so the function runs at the end of programs that were not interrupted, and twice if Ctrl-C is pressed while it runs.)", "quantifier": "all settings of the four function pointers, all behaviours of the functions (return, throw, exit, interrupted by signals), all earlier caught signals and exceptions, all origins of the last exception", "why_tests_cant": "A test ends one process in one way; the nesting of throws and signals inside the functions and the history before have no bound.", "anchors": ["src/except.c: ex_terminate, ex_throw, ex_handler, ex_flags_reset", "include/except.h: exception_terminate_func, exception_ctrl_c_func, guard_terminate_func, guard_ctrl_c_func"]}
{"id": "C240", "title": "An uncaught exception ends the program in good order", "statement": "A program that an uncaught exception ends always ends, with exit (so that buffered output is written and the functions given to atexit run) unless the exception is that of a signal, and the exception is named first.  (False of the code: one signal caught at any time before makes every later end a _Exit that loses buffered output; an exception thrown while another one unwinds is not named.)", "quantifier": "all histories of caught signals and exceptions, all functions for the end of the program, all origins of the exception", "why_tests_cant": "Depends on signals that were caught long before.", "anchors": ["src/except.c: ex_terminate, ex_throw, ex_print, ex_handler, ex_flags_reset"]}
{"id": "C241", "title": "Errors of sockets on Windows mean what they mean elsewhere", "statement": "On Windows a failed socket call has the errno that the same failure has on other systems, and async_read and async_write wait and try again exactly as long as the call would block, and otherwise report the result at the first try.  (False of the code: process, user and quota limits become EAGAIN, so the call waits and tries for ever; WSAESHUTDOWN, WSAEHOSTDOWN and WSAENOBUFS get the errno of another failure.)", "quantifier": "all error codes and all sequences of results", "why_tests_cant": "Most of these errors cannot be provoked, and a loop that never ends cannot be observed.", "anchors": ["src/os_windows.c: convert_wsa_error, os_geterror", "src/async_io.c: async_read, async_write"]}
{"id": "C242", "title": "The text of a certificate is just that", "statement": "x509_str returns exactly the text that OpenSSL makes of the certificate, or NULL, and reads no memory outside of it.  (False of the code: the memory of the BIO is not NUL terminated, so whatever lies behind the text follows it, and without a zero byte there the read leaves the block.)", "quantifier": "all certificates, with and without details, all contents of the memory behind the text", "why_tests_cant": "Fresh memory is usually zero, so tests pass.", "anchors": ["src/async_tls.c: x509_str", "src/arrays.c: str_dup"]}
{"id": "C243", "title": "A named pipe is opened by the name it was made with", "statement": "After mkfifo(name, mode) a call of open(name, ...) opens the pipe just made, whatever other pipes were made before or after, and open of a name never given to mkfifo opens the file of that name.", "quantifier": "all sequences of names given to mkfifo and all states of the table of pseudo descriptors", "why_tests_cant": "Which path is opened depends on the table of all pipes made before and on the length of the names; tests make one pipe with a short name and an almost empty table.", "anchors": ["src/os_unix.c: os_mkfifo, os_open, events_pseudo_fd, events_new_fd", "include/events.h: SYS_PIPE"]}
{"id": "C244", "title": "A secure connection stays secure while others are closed", "statement": "Reading and writing on a connection made secure goes through its own TLS object until it is closed, and on other connections never through a TLS object, whatever connections other threads close and accept meanwhile.", "quantifier": "all interleavings of accepting, securing and closing of any number of connections in any number of threads and all choices of descriptor numbers", "why_tests_cant": "The wrong outcome needs another thread to accept a connection between two lines of the closing function; a test practically never hits that moment, and the connection then goes on silently in clear text.", "anchors": ["src/async_tls.c: tls_closer, async_tls_accept, tls_reader, tls_writer"]}
{"id": "C245", "title": "The handler of a connection touches only its own connection", "statement": "The task started for an accepted connection uses and closes that connection and no other, and the connection is closed when the handler function ends.", "quantifier": "all schedules of accepted connections, uses, closes and ends of handlers, for accept_handler, tls_handler and uds_handler", "why_tests_cant": "It depends on the numbers the system gives out while handlers run; tests handle one connection at a time and do not notice that a close hits another connection.", "anchors": ["src/events.c: accept_handler, accept_client_handler", "src/async_tls.c: tls_handler, tls_client_handler, tls_closer", "src/async_uds.c: uds_handler, uds_client"]}
{"id": "C246", "title": "On BSD and macOS the end of watching leaves the loop working", "statement": "Adding and removing watched directories and ending the watching leaves the event loop able to poll, and closes every descriptor that was opened for the directories and no other.", "quantifier": "all sequences of events_watch, events_remove, events_del_watch, polls and of opening and closing files, and all numbers the system gives out", "why_tests_cant": "The damage shows only at a later poll or when another file gets the number of the closed queue; tests end the program right after the watching.", "anchors": ["src/os_unix.c: inotify_init, inotify_close, inotify_del_monitor, inotify_rm_watch, os_close", "src/events.c: events_watch, events_del_watch, events_remove", "src/kqueue.c: events_poll_once_internal, events_destroy"]}
{"id": "C247", "title": "Reading directory changes without a loop on BSD", "statement": "On BSD and macOS a program that reads from a directory monitor into its buffer gets every change made in the watched directories since, and the read never writes beyond the length it was given.", "quantifier": "for all sequences of adding, removing, changing directories and reading, all buffer lengths and all sizes of the kernel's records", "why_tests_cant": "The overrun depends on how many directories changed between two reads, compared to a buffer length the program chooses; a test changes one file in one directory, which works.", "anchors": ["src/os_unix.c:os_read", "src/os_unix.c:inotify_add_watch", "src/os_unix.c:inotify_rm_watch", "src/os_unix.c:inotify_next", "examples/inotify.c:main"]}
{"id": "C248", "title": "Signals on Windows are each delivered once", "statement": "On Windows every arrival of a signal given to the event loop calls its callback exactly once, also when it arrives again or another signal arrives while a callback runs; callbacks of signals do not run at the same time in two threads, and the process goes on.", "quantifier": "for all numbers of arrivals of all signals and all interleavings of the threads in which the runtime calls the handlers", "why_tests_cant": "What happens depends on where the thread of the first handler is when the second signal arrives; raising one signal after the other works.", "anchors": ["src/os_windows.c:events_sig_handler", "src/os_windows.c:events_signal_set"]}
{"id": "C249", "title": "try, throw and catch mean the same on Windows", "statement": "On Windows, as elsewhere, an exception goes to the nearest try statement around it whose catch clause matches, finally blocks on the way run once, an exception nobody catches is named and ends the program, and exceptions of the processor or the system are caught under their documented names.", "quantifier": "for all nestings of try, catch and finally blocks with throw at any place and all codes of system exceptions", "why_tests_cant": "Depends on where in the nesting the exception is thrown and on records of statements that have ended; a test throws in a body and catches it, which works.", "anchors": ["src/except.c:ex_throw", "src/except.c:catch_seh", "src/except.c:catch_filter_seh", "src/except.c:ex_signal_setup", "src/except.c:try_finish", "include/except.h:ex_try"]}
{"id": "C250", "title": "The kind of a descriptor", "statement": "events_fd_type tells for every open descriptor what it is (regular file, directory, device, pipe, link, socket), whatever its permissions and attributes, and something else for a descriptor that is not open.", "quantifier": "for all modes of files on unix, and all handles and attributes on Windows", "why_tests_cant": "A test asks about a few files; the answer on Windows depends on attributes such as archive or read-only and on which handles exist.", "anchors": ["src/events.c:events_fd_type", "include/events.h:fd_types"]}
{"id": "C251", "title": "A thread bound to a set of processors runs on just that set", "statement": "After any sequence of os_cpumask_set on an empty mask and a call of os_affinity with it, the thread may run on exactly the processors named, or os_affinity reports failure and the thread keeps what it had. (True on Windows for processors below 64. Naming a processor from 64 on, or from 31 on under macOS, is undefined behaviour; under macOS only the smallest processor named has an effect, processor 0 means none at all, an empty mask is undefined behaviour, and failures are reported as success.)", "quantifier": "for all lists of processor numbers in any order, all machines, all earlier bindings", "why_tests_cant": "a test machine has few processors; the wrong sets are hints to the scheduler whose effect no test can see", "anchors": ["src/os_windows.c: os_cpumask_set, os_affinity", "src/os_unix.c: os_cpumask_set, os_affinity, pthread_setaffinity_np", "include/future.h: os_cpumask_set, os_affinity"]}
{"id": "C252", "title": "Several watched directories on Windows are told apart", "statement": "When several directories are watched with events_watch on one loop, every call of the user's function is about the change it was made for: the descriptor, the record and fs_events_path belong to the same directory. False of the code: all directories share one buffer, so of changes that come before the first is handled only the last is seen, once for each; and a change of a file directly in a directory is told with the name of the directory that was added last. With one directory, or, for the records, when each change is handled before the next, it holds.", "quantifier": "for all sequences of watches, changes and turns of the loop", "why_tests_cant": "it depends on changes in two directories between two turns of the loop; tests watch one directory", "anchors": ["src/os_windows.c: inotify_add_watch, inotify_task, inotify_handler, os_iodispatch, fs_events_path", "src/events.c: events_watch"]}
{"id": "C253", "title": "Making descriptors on Windows does not disturb operations that go on", "statement": "However many descriptors are made while directory changes are asked for or pipes wait for a client, the operations end as if nothing else had happened, and a new descriptor is given or an error reported. False of the code: the records that the system writes to lie in the table of descriptors, which moves when it grows, so the system writes to memory that was given back; and when there is no memory to grow, the lost pointer is used. Holds as long as the table need not grow; growing without operations going on keeps all entries.", "quantifier": "for all tables, all sequences of new descriptors, beginnings and ends of operations, all answers of realloc", "why_tests_cant": "the table grows at 256 active descriptors, and whether it moves is up to the allocator", "anchors": ["src/os_windows.c: grow_ioTable, events_new_fd, inotify_task, os_accept_pipe, inotify_add_watch"]}
{"id": "C254", "title": "A turn of the loop on Windows passes on what ended, within its wait", "statement": "events_once on Windows passes every end of an operation on a directory, pipe or child process to its function, and returns after about the wait it was asked for. False of the code: after a signal the next end of an operation is dropped, for good; the wait begins anew after each end of an operation, so a steady stream of them holds up a turn without bound; and a loop with such descriptors waits a thousandth of the time asked for. Without signals nothing is lost; with tasks to run the turn is not held up.", "quantifier": "for all sequences of signals and ends of operations at all times, all waits", "why_tests_cant": "it depends on when signals arrive; unbounded waits cannot be observed", "anchors": ["src/os_windows.c: os_iodispatch, events_sig_handler", "src/events.c: events_once, events_execute"]}
{"id": "C255", "title": "Emulated thread-local variables are local to threads", "statement": "Where the compiler has no thread-local variables, every call of a variable's function gives the calling thread's own object, the same at every call, different from those of other threads and other variables. False of the code when threads first use a variable at the same time: a thread's object can change between two calls, or it gets the object of another variable or a null pointer. Holds once a first call was alone.", "quantifier": "for all schedules of all threads, all numbers of keys in use and all values they have", "why_tests_cant": "the wrong cases need two threads within a few instructions of the first use", "anchors": ["include/future.h: thrd_local, thrd_static, thrd_local_get", "src/os_unix.c: os_tls_alloc, os_tls_get, os_tls_set"]}
{"id": "C256", "title": "Ending the library on Windows closes the watched directories and nothing else", "statement": "Ending the library on Windows closes the directories that are still watched, and no descriptor or socket of the rest of the program; and files can be closed before the library begins and after it has ended. False of the code: the low halves of the addresses of records are closed as descriptors, so a socket or file that happens to have such a number is closed and the directories stay open; and closing a small descriptor of the C library while the library is not running reads a table that is not there. Holds if no directory is watched, and for sockets and descriptors from 256 on.", "quantifier": "for all tables of descriptors, all addresses of the records, all open sockets, all descriptors", "why_tests_cant": "which numbers are closed depends on the addresses the allocator gives", "anchors": ["src/os_windows.c: clear_pseudo_events, os_shutdown, os_close, events_valid_fd, inotify_add_watch"]}
{"id": "C257", "title": "async_fprintf stores the text and reports how much", "statement": "async_fprintf puts the text into the file exactly as given and returns its length; if it cannot, the value says so. False of the code: when the disk is full the full length is returned although the end of the text is lost, since the results of flushing and closing are not looked at; and a file that cannot be opened gives 0, as an empty text does. Holds when the file opens and the disk takes the text; and adding never harms what was in the file before.", "quantifier": "for all texts, modes, earlier contents, amounts of room on the disk and sizes of the stream's buffer", "why_tests_cant": "full disks and all sizes of text and buffer cannot be tried", "anchors": ["src/async_io.c: _os_fprintf, async_fprintf"]}
{"id": "C258", "title": "A task that looks up a host gets that host's address", "statement": "The address that async_gethostbyname and gethostbyname_ip give a task is that of the host the task asked for, whatever other tasks look up at the same time; an unknown host is reported. False of the code: the result is a record shared by all threads, so another lookup that ends before the address is taken replaces it; the text is in a buffer shared by the tasks of a thread; and for an unknown host a null pointer is followed. Holds if no other lookup ends between the end of the task's own and its taking the address, and no task of the thread takes an address until the text is read.", "quantifier": "for all schedules of all tasks and lookups, all answers of the name service, all earlier histories", "why_tests_cant": "the outcome depends on the order in which lookups of several tasks end", "anchors": ["src/async_io.c: os_gethostbyname, async_gethostbyname, gethostbyname_ip", "src/future.c: future_buffer", "include/async_io.h: async_gethostbyname"]}
{"id": "C259", "title": "Callbacks of pipes, files, processes and directories on Windows run in the thread of their loop, while registered", "statement": "With several loops in several threads, the callback of a descriptor served by the completion port is called once for every end of an operation, in the thread of the loop it was added to, and not after it was removed; and removing a descriptor twice is an error and no more. False of the code: all loops fetch from one port and do not look whose descriptor it is; callbacks of child processes, pipes, files and directories are called after their removal; and removing a descriptor a second time follows a null pointer. Holds if one loop only has such descriptors; in every schedule nothing is passed on twice.", "quantifier": "for all numbers of loops and descriptors, all sequences of adding, removing, ends of operations and fetching", "why_tests_cant": "which thread fetches an end depends on the schedule", "anchors": ["src/os_windows.c: os_iodispatch", "src/events.c: events_add, events_del, events_execute"]}
{"id": "C260", "title": "A program started on Windows has the standard handles it was given and no others", "statement": "On Windows a program started with handles for its input, output and errors has these as standard handles, those of its parent in the places where none was given, and holds no other handle of its parent. (Of the code the first part holds unless the program is detached, which gets none of them. The last does not: a handle given to one program stays inheritable, so every later program that is given any handle holds it too as long as it is open, and the reader of a pipe does not see its end before that program has ended as well.)", "quantifier": "all histories of opening and closing handles and starting programs", "why_tests_cant": "What a program holds besides its own handles depends on all programs started before and on what was closed in between.", "anchors": ["src/os_windows.c:os_exec_child", "src/os_windows.c:exec_info", "src/os_windows.c:events_new_fd", "include/async_io.h:exec_info"]}
{"id": "C261", "title": "Programs started by several threads on Windows are the ones they asked for", "statement": "On Windows every call of exec starts the program it names with the arguments it was given, whatever other threads do at the same time. (Of the code this holds as long as no thread calls exec while another is inside it; otherwise a thread can start the program another thread named, with its own arguments.)", "quantifier": "all numbers of threads, all names and arguments, all schedules", "why_tests_cant": "The mix-up needs a particular interleaving of two calls.", "anchors": ["src/os_windows.c:exec", "src/os_windows.c:os_exec_info", "src/os_windows.c:os_exec_command"]}
{"id": "C262", "title": "Texts returned by str_itoa and ex_strerror last until the next call", "statement": "The text returned by str_itoa or ex_strerror stays what it is until the same task asks for another one, and asking is defined in every state of the program. (Of the code: the text stays as long as no task of the thread asks for another one and, if it lies in a guard section, no section is left. Another task's call overwrites it; a text from ex_strerror in a guard section is freed with the section, and so is one of a task without a section, asked for while another task's was open; after overlapping sections of two tasks ex_strerror writes into freed memory; str_itoa as the first thing in a thread writes to a null pointer.)", "quantifier": "all histories of calls and guard sections of any number of tasks of a thread", "why_tests_cant": "Whether a text is overwritten or freed depends on what other tasks do between the call and the use of the text.", "anchors": ["src/arrays.c:str_itoa", "src/except.c:ex_strerror", "src/except.c:get_scope", "src/except.c:scope_init", "src/except.c:guard_init", "src/except.c:guard_reset"]}
{"id": "C263", "title": "The names of the machine are complete and right", "statement": "events_hostname, events_uname and events_sysname return the complete host name, description and system name of the machine, whenever and from whichever thread they are called. This is false of the code: a host name that does not fit into the buffer of MAXHOSTNAMELEN bytes (256 unless a system header defines it smaller) is reported as localhost, a longer description loses its end, a new host name is never noticed, events_sysname returns an empty text while another thread is between the two writes of events_uname, and a thread calling while another fills the buffer can find any beginning of the text. If the names fit and stay, every call of one thread returns the right text in any order of calls, and once a writer is through every thread finds the whole text.", "quantifier": "for all names, buffer sizes, orders of calls, and schedules of any number of threads", "why_tests_cant": "The machine a test runs on has one short name that does not change, and a half-filled buffer is only visible for an instant.", "anchors": ["src/async_tls.c:events_hostname", "src/async_tls.c:events_uname", "src/async_tls.c:events_sysname"]}
{"id": "C264", "title": "Adding a socket on Windows finds the socket under all layered providers", "statement": "When a socket is added to an epoll port on Windows, the socket polled is the base provider's, found through any number of layered providers that refuse to name it, and the call returns: with the error of the lowest layer if no layer tells. Returning is false of the code: providers whose next-layer sockets lead back to an earlier one make the call run for ever, as only a layer naming itself is noticed. It returns whenever every layer lies on a lower one.", "quantifier": "for all answers of the providers for all sockets and all depths of layers", "why_tests_cant": "Tests run without layered providers installed, so only the first question of the first turn is ever asked.", "anchors": ["src/wepoll.c:ws_get_base_socket", "src/wepoll.c:ws__ioctl_get_bsp_socket"]}
{"id": "C265", "title": "socket_is_eof tells whether a connection has ended", "statement": "socket_is_eof tells at once whether the other side of a connection has ended and everything was read. This is false of the code: an empty datagram counts as the end, a blocking plain socket on which nothing has arrived makes the thread wait, and for secure connections the oldest error of the thread decides, so that an older error of any connection hides the end and the end of another connection counts as the end of this one. Without older errors and empty datagrams the answer is right, asking a plain socket changes nothing, and with n older errors the end is told by call n + 1 and all later ones.", "quantifier": "for all sockets, data arrived, error queues and results of the library", "why_tests_cant": "The answer depends on errors left by other connections of the same thread and on what has arrived at that instant.", "anchors": ["src/async_tls.c:socket_is_eof", "include/async_tls.h:TLS_EOF"]}
{"id": "C266", "title": "uname on Windows fills in all fields", "statement": "On Windows uname fills in every field of the structure with a text that fits and is right, and does not end the program. This is false of the code: the version is left unwritten, with 0 returned, whenever the product's name cannot be read or has more than 64 bytes, a host name of more than 64 bytes ends the program, and every 32-bit Intel machine is called i386. All other fields are written and fit, do not depend on what was in memory, and the description events_uname makes reads none of the unwritten bytes.", "quantifier": "for all answers of Windows and all previous contents of the structure", "why_tests_cant": "A test sees one machine, whose registry can be read and whose name is short.", "anchors": ["src/os_windows.c:uname", "src/async_tls.c:events_uname", "include/compat/sys/utsname.h:struct utsname"]}
{"id": "C267", "title": "Blocking calls are spread evenly over the pool", "statement": "Calls that are carried out by the thread pool (files, names, keys) are given to its workers in turn, so that each worker gets its share of the jobs, rounded up or down, whichever threads make the calls. This is false of the code when several threads make calls at the same time: all those that ask for a worker before one of them has queued its job get the same worker, however many they are. Calls made one after the other are spread evenly, in turn; and in every schedule each job goes to a worker that exists and none is lost.", "quantifier": "for all numbers of workers, callers and calls, and all schedules", "why_tests_cant": "How jobs are spread does not change any result, only how long calls wait for each other, and the bad schedules need several threads between the same two steps.", "anchors": ["src/future.c:futures_pool", "src/future.c:queue_work"]}
{"id": "C268", "title": "Data attached to a descriptor belongs to the open file", "statement": "events_get_target_data returns the pointer last attached with events_set_target_data to the file that is open under the descriptor, and null if none was. This is false of the code: what a thread other than the main one attaches is dropped silently, a new file that gets the number of a closed one has its data, and attaching to a descriptor beyond the table writes behind it. While a number is neither closed nor opened and only the main thread attaches, it holds whatever is done with other descriptors; and memory behind the table is written in no other case.", "quantifier": "for all sequences of attaching, closing and opening, all descriptors, pointers and table sizes", "why_tests_cant": "Tests attach once to one descriptor in the main thread; the old pointer shows only when a number comes back.", "anchors": ["src/events.c:events_set_target_data", "src/events.c:events_get_target_data", "src/events.c:events_target"]}
{"id": "C269", "title": "epoll on Windows is set up before its first use, once", "statement": "However many threads make their first epoll call at the same time, none of them goes on before Winsock, the functions of ntdll, the locks and the table of handles were all set up, in this order and in one attempt, and none of them is set up again afterwards. Only the thread whose own attempt failed gets an error, the next call tries again, and a part is set up at most once more often than attempts fail (so exactly once if none fails; Winsock is started anew for every failed attempt).", "quantifier": "for all numbers of threads, all schedules and all failures of the parts", "why_tests_cant": "The setup runs once per process and the window in which two threads meet in it is tiny; failures of system functions cannot be provoked.", "anchors": ["src/wepoll.c:init", "src/wepoll.c:init__once_callback"]}
{"id": "C270", "title": "epoll functions on Windows leave the error codes of Linux", "statement": "A failing epoll_ctl, epoll_wait or epoll_create on Windows leaves the errno the Linux manual names, EBADF for handles that are not open taking priority over all others, and calls that Linux refuses are refused. This is false of the code: a socket closed while registered can still be changed and removed, things that are no sockets give ENOTSOCK where EPERM is never left, and epoll_create1 refuses EPOLL_CLOEXEC. Whenever epoll_ctl fails (with memory, and base socket found) the code is the right one, with open handles it succeeds exactly when the manual says, and every code of Windows in the table gives the errno beside it and all others EINVAL.", "quantifier": "for all operations, handles, states of registration and codes of Windows", "why_tests_cant": "A test provokes a few errors one at a time; the priority of codes and the whole table need all combinations.", "anchors": ["src/wepoll.c:epoll_ctl", "src/wepoll.c:epoll_wait", "src/wepoll.c:epoll_create1", "src/wepoll.c:err__map_win_error_to_errno", "src/wepoll.c:err_check_handle"]}
{"id": "C271", "title": "Connections trust the authorities the program has chosen", "statement": "After use_ca_certificate(path) every connection made with tls_dial trusts the certificates in that file, and without a choice those in the default file of the TLS library. This is false of the code: the first call decides for the whole process. A file chosen after the first connection, or after another choice, is silently ignored, an empty name leaves the default in force, and a name too long for the buffer is silently cut. If one file is chosen before the first connection and its name fits, or none is chosen, all connections trust the file meant; in every case all connections of a process trust the same file.", "quantifier": "for all sequences of choices and connections, all file names and all sizes of the buffer", "why_tests_cant": "A test chooses one file once, before connecting; the order of calls in a whole process decides.", "anchors": ["src/async_tls.c:use_ca_certificate", "src/async_tls.c:ca_cert_file", "src/async_tls.c:tls_dial"]}
{"id": "C272", "title": "rpposix_memalign and rpaligned_calloc keep their contracts", "statement": "rpposix_memalign gives a pointer with the alignment and the room asked for, refuses wrong alignments with EINVAL and reports missing memory with ENOMEM; rpaligned_calloc gives room for all elements, all zero, or fails, and changes no other memory. This is false of the code: alignments up to 16 which are no power of two are accepted and not met, an alignment of 64 KiB or more is reported as missing memory, sizes just below 2^64 get the smallest block, over whose end rpaligned_calloc then writes zeros, and a product of 2^64 gets the smallest block too. It holds for powers of two below the span size and products below 2^61 bytes and 2^30 pages.", "quantifier": "for all alignments, sizes and counts, all blocks the allocator finds and all addresses chosen by the kernel", "why_tests_cant": "Tests use common alignments and sizes; the errors are at the ends of the ranges.", "anchors": ["src/rpmalloc.c:rpposix_memalign", "src/rpmalloc.c:rpaligned_calloc", "src/rpmalloc.c:_rpmalloc_aligned_allocate"]}
{"id": "C273", "title": "Making a descriptor blocking or nonblocking changes only that", "statement": "events_set_nonblocking and events_set_blocking change for the given descriptor whether it blocks, and nothing else; a descriptor which is not open is refused. This is false of the code: all descriptors of the same open file (made by dup, or in other processes) change with it, and flags another thread sets between reading and writing are lost. All other flags, and all descriptors of other open files, stay as they are; making a descriptor nonblocking and blocking again gives its flags back exactly if it was blocking before.", "quantifier": "for all descriptors, open files, flags and values written by other threads", "why_tests_cant": "Tests look at one flag of one descriptor; sharing and races need other descriptors and threads.", "anchors": ["src/events.c:events_set_nonblocking", "src/events.c:events_set_blocking"]}
{"id": "C274", "title": "Programs started with spawn get ordinary streams, and a failed spawn leaves nothing open", "statement": "A program started with spawn reads and writes its standard streams as usual, waiting for input and for room, its input, output and errors go through pipes to the parent, and if spawn fails for want of pipes it leaves nothing open. This is false of the code: the standard streams of the program are nonblocking, so that a program reading before anything was written is told EAGAIN; without an environment its errors go to the stream of the parent; and a failed spawn leaves its event descriptor and the pipes made before open. spawn fails in this part exactly if a pipe it needs cannot be made.", "quantifier": "for all states of the kernel, all descriptors it chooses and all failures", "why_tests_cant": "Tests start programs that do not read their input, and never run out of descriptors.", "anchors": ["src/async_io.c:spawn_ex", "src/os_unix.c:os_exec_info", "src/os_unix.c:exec_info"]}
{"id": "C275", "title": "A spawned program finds the end of its input when the parent closes it", "statement": "When the parent closes the input of a spawned program (exec_fdin), the program finds the end of its input once it has read what was written, whatever other programs are running, and when a program has ended nothing opened for it stays open. This is false of the code: every program spawned while the input was open holds a copy of it, so that the end is not found before all of them have ended; and each program spawned with an environment leaves both ends of its pipe for errors open. The end is found exactly if the parent has closed the input and no program spawned while it was open is running.", "quantifier": "for all sequences of spawning programs, closing inputs and programs ending", "why_tests_cant": "Tests run one program at a time; the wrong behaviour needs two whose lives overlap.", "anchors": ["src/async_io.c:spawn_ex", "src/async_io.c:spawning", "src/async_io.c:exec_fdin", "src/os_unix.c:os_exec_info"]}
