{"id": "C01", "title": "String length is exact and stays inside aligned words", "statement": "For every NUL-terminated string in memory, at any address alignment and with arbitrary bytes before and after it, simd_strlen(s) returns the number of bytes before the first NUL; every byte it reads lies in an aligned 8-byte word that also contains a byte of the string or its terminator (so it can never fault on the page after the string).", "quantifier": "all memories, all start addresses, all string lengths", "why_tests_cant": "Depends on 8 alignments x every length x every neighbouring byte value; the SWAR zero test can only be trusted if it is exact for all 2^64 words.", "anchors": ["src/swar.c:simd_strlen", "src/swar.c:haszero"]}
{"id": "C02", "title": "String comparison decides equality", "statement": "simd_strcmp(a,b) returns 0 exactly when the two NUL-terminated strings are equal; is_str_eq(a,b) is true exactly when both are non-NULL and equal, and is_str_empty(s) exactly when s is \"\".", "quantifier": "all pairs of NUL-terminated strings with arbitrary bytes after the terminators", "why_tests_cant": "The failing pairs are infinitely many and depend on length classes (exactly 8, proper prefixes); tests compare a handful of pairs.", "anchors": ["src/swar.c:simd_strcmp", "src/raii.c:is_str_eq", "src/raii.c:is_str_empty"]}
{"id": "C03", "title": "Forward byte search finds the first occurrence within the bound", "statement": "simd_memchr(s,c,n) returns a pointer to the first of the n bytes at s that equals c, returns NULL when there is none, and examines only bytes of s[0..n).", "quantifier": "all buffers, all byte values, all lengths", "why_tests_cant": "Correctness depends on the length class (<8, =8, >8) and on bytes that follow the buffer, which a test cannot enumerate.", "anchors": ["src/swar.c:simd_memchr", "src/swar.c:_memchr"]}
{"id": "C04", "title": "Backward byte search finds the last occurrence within the bound", "statement": "simd_memrchr(s,c,n) returns a pointer to the last of the n bytes at s that equals c, and NULL when there is none.", "quantifier": "all buffers, all byte values, all lengths", "why_tests_cant": "Same as C03: unbounded buffers and neighbouring bytes.", "anchors": ["src/swar.c:simd_memrchr", "src/swar.c:_memrchr"]}
{"id": "C05", "title": "Eight-byte block search primitives are exact", "statement": "For every 8-byte block and every byte c, the zero/byte-membership tests over a 64-bit word (the exported haszero and hasbyte helpers) are non-zero exactly when the block contains that byte, the lowest flagged lane is the first occurrence, and the eight variants of the block search memchr8 built on them report existence / first index / last index / -1 exactly as documented.", "quantifier": "all 2^64 blocks x 256 bytes x 8 search options", "why_tests_cant": "2^72 inputs.", "anchors": ["src/swar.c:haszero", "src/swar.c:hasbyte", "src/swar.c:_memchr8", "include/swar.h"]}
{"id": "C06", "title": "Decimal parsing is exact", "statement": "For every string of decimal digits of length n, simd_atou(s,n) returns its decimal value modulo 2^64 (for n up to 20, so exactly the value whenever it fits), and simd_atoi(s,n) returns the signed value for an optional leading '-'.", "quantifier": "all digit strings", "why_tests_cant": "10^20 inputs; the block decomposition (len%8, len/8) has many paths.", "anchors": ["src/swar.c:simd_atou", "src/swar.c:simd_atoi", "src/swar.c:atou8"]}
{"id": "C07", "title": "Hexadecimal parsing is exact", "statement": "For every string of at most 16 hexadecimal digits in either case, simd_htou(s,n) returns its value in base 16.", "quantifier": "all hex strings", "why_tests_cant": "16^16 inputs times letter cases.", "anchors": ["src/swar.c:simd_htou", "src/swar.c:htou8"]}
{"id": "C08", "title": "Integer formatting is exact", "statement": "For every int64 x, simd_itoa(x,buf) writes the canonical decimal representation of x followed by NUL.", "quantifier": "all 2^64 values", "why_tests_cant": "2^64 inputs; breaks exactly at the 32-bit boundary, which tests do not reach.", "anchors": ["src/swar.c:simd_itoa", "src/swar.c:itoa8", "src/swar.c:utoa2p"]}
{"id": "C09", "title": "Format/parse round trip", "statement": "Parsing the text simd_itoa produced gives back the number: simd_atoi(simd_itoa(x)) = x.", "quantifier": "all 2^64 values", "why_tests_cant": "2^64 inputs.", "anchors": ["src/swar.c:simd_itoa", "src/swar.c:simd_atoi"]}
{"id": "C10", "title": "Zero padded formatting is exact", "statement": "utoap(N,x) yields exactly N characters: the last N decimal digits of x, zero padded on the left, for N from 1 to 20.", "quantifier": "all uint64 values, all widths", "why_tests_cant": "2^64 values x 20 widths.", "anchors": ["src/swar.c:utoap", "src/swar.c:_utoap"]}
{"id": "C11", "title": "Decimal fraction parsing keeps sign and magnitude", "statement": "simd_atod of \"I.F\" returns the number whose integer part is I and whose fraction digits are F with the sign of the text.", "quantifier": "all decimal texts", "why_tests_cant": "Infinitely many texts.", "anchors": ["src/swar.c:simd_atod", "src/swar.c:_copySign"]}
{"id": "C12", "title": "Base64 round trip", "statement": "For every NUL-free byte string s (shorter than 3 GiB), the empty one included, decoding the encoding gives s back: str_decode64(str_encode64(s)) = s.", "quantifier": "all byte strings", "why_tests_cant": "Infinitely many strings; three length classes mod 3.", "anchors": ["src/swar.c:str_encode64_ex", "src/swar.c:str_decode64_ex", "src/raii.c:raii_encode64", "src/raii.c:raii_decode64"]}
{"id": "C13", "title": "Base64 encoding is standard and fits its buffer", "statement": "For every string shorter than 3 GiB, str_encode64 yields exactly the RFC 4648 text (4*ceil(n/3) characters, alphabet A-Za-z0-9+/ with = padding), and writes exactly as many bytes as it allocated, including the terminator; longer strings are refused with NULL and never overflow the buffer.", "quantifier": "all byte strings", "why_tests_cant": "Buffer exactness must hold for every length.", "anchors": ["src/swar.c:str_encode64_ex", "src/swar.c:str_base64_len"]}
{"id": "C14", "title": "Base64 decoding of arbitrary text never writes outside its buffer", "statement": "For every text (valid base64 or not), str_decode64 either returns NULL or writes only inside the buffer it allocated.", "quantifier": "all byte strings used as input", "why_tests_cant": "Adversarial inputs cannot be enumerated.", "anchors": ["src/swar.c:str_decode64_ex"]}
{"id": "C15", "title": "is_base64 recognises base64 text", "statement": "is_base64(s) is true exactly when s is a well-formed base64 text, i.e. the output of the encoder for some byte string.", "quantifier": "all byte strings", "why_tests_cant": "Infinitely many strings.", "anchors": ["src/swar.c:is_base64"]}
{"id": "C16", "title": "Splitting is lossless", "statement": "str_split(s, d) for a non-empty delimiter d returns the tokens between successive occurrences of d: no token contains d, joining the tokens with d gives s back, and *count is the number of tokens; every token is NUL terminated inside the single allocated block.", "quantifier": "all strings and delimiters", "why_tests_cant": "Infinitely many strings; the block size computation must be exact for each.", "anchors": ["src/swar.c:str_split_ex", "src/raii.c:raii_split"]}
{"id": "C17", "title": "Concatenation is exact", "statement": "str_concat of n strings returns their concatenation, NUL terminated, inside a block of exactly the needed size.", "quantifier": "all lists of strings", "why_tests_cant": "Infinitely many lists.", "anchors": ["src/swar.c:str_concat_ex", "src/raii.c:raii_concat"]}
{"id": "C18", "title": "Replacement replaces every occurrence and fits its buffer", "statement": "str_replace(h,n,r) for non-empty n returns h with every left-to-right non-overlapping occurrence of n replaced by r, writing exactly the allocated number of bytes, and NULL when n does not occur.", "quantifier": "all triples of strings", "why_tests_cant": "Infinitely many; the counting pass and the copying pass must agree on every input.", "anchors": ["src/swar.c:str_replace_ex", "src/raii.c:raii_replace"]}
{"id": "C19", "title": "Substring position is the first occurrence", "statement": "For every text shorter than 2 GiB, strpos(text,pat) returns the least index at which pat occurs in text and a negative value when it does not occur; is_str_in agrees.", "quantifier": "all pairs of strings", "why_tests_cant": "Infinitely many pairs.", "anchors": ["src/swar.c:strpos", "src/raii.c:is_str_in"]}
{"id": "C20", "title": "Growable array keeps elements and never under-allocates", "statement": "After any number of appends of any element size, every element slot handed out lies inside the array's allocation, slots are consecutive and pairwise disjoint, previously written elements keep their contents across growth, and size arithmetic that would exceed SIZE_MAX reports failure (NULL) instead of wrapping.", "quantifier": "all histories of appends, all element sizes, all allocator failures", "why_tests_cant": "Unbounded histories; overflow needs 2^60 elements.", "anchors": ["src/raii.c:raii_array_append", "src/raii.c:realloc_array", "src/raii.c:umull_overflow", "src/raii.c:add_overflow"]}
{"id": "C21", "title": "Deferred functions run once, last in first out, at scope exit", "statement": "For every history of deferrals, allocations and releases over any number of scopes, up to the release of a scope (registering on it again afterwards is C23; deferred functions operating on their own scope are C22 and C23), deferred functions run only when their scope is released (raii_deferred_free / raii_deferred_clean / raii_delete); each accepted one then runs exactly once with its own argument, in the reverse of the order of registration, and nothing else runs. Without exceptions nothing undefined happens.", "quantifier": "all histories of deferrals and releases on any number of scopes", "why_tests_cant": "Unbounded histories.", "anchors": ["src/raii.c:raii_deferred", "src/raii.c:raii_deferred_run", "src/raii.c:raii_deferred_free"]}
{"id": "C22", "title": "Releasing a scope is idempotent", "statement": "Releasing a scope a second time runs nothing: no deferred function ever runs twice, and no memory obtained from a scope is freed twice, for every interleaving of registrations, allocations and releases.", "quantifier": "all histories of scope operations", "why_tests_cant": "Unbounded histories; double frees hide.", "anchors": ["src/raii.c:raii_deferred_free", "src/raii.c:raii_delete", "src/raii.c:malloc_full"]}
{"id": "C23", "title": "Every deferral eventually runs", "statement": "A function deferred on a live scope is run no later than the next release of that scope (nothing registered is ever silently dropped).", "quantifier": "all histories, including re-use of the thread scope after raii_deferred_clean, and deferrals made from inside a deferred function", "why_tests_cant": "Unbounded histories and re-entrancy.", "anchors": ["src/raii.c:raii_deferred_free", "src/raii.c:raii_array_reset", "src/raii.c:raii_deferred_run"]}
{"id": "C24", "title": "Cancelling a deferral prevents exactly that one", "statement": "After id = raii_deferred(scope,f,x), raii_deferred_cancel(scope,id) makes the release of the scope run every other live deferral, in LIFO order, and not that one.", "quantifier": "all histories of deferrals and cancellations", "why_tests_cant": "Unbounded histories; depends on memory layout.", "anchors": ["src/raii.c:raii_deferred_cancel", "src/raii.c:raii_deferred_internal", "src/raii.c:raii_deferred_array_get_index", "src/raii.c:raii_deferred_array_get_element"]}
{"id": "C25", "title": "Firing a deferral runs exactly that one, now", "statement": "After id = raii_deferred(scope,f,x), raii_deferred_fire(scope,id) runs f(x) at once, and the release of the scope does not run it again.", "quantifier": "all histories of deferrals, fires and releases", "why_tests_cant": "As C24.", "anchors": ["src/raii.c:raii_deferred_fire"]}
{"id": "C26", "title": "Scoped memory is freed exactly once", "statement": "Each block obtained with malloc_full/calloc_full/malloc_by/calloc_by/malloc_default on a scope stays allocated until the scope is released and is passed to its release function exactly once at that release.", "quantifier": "all histories of allocations, deferrals, releases", "why_tests_cant": "Unbounded histories.", "anchors": ["src/raii.c:malloc_full", "src/raii.c:calloc_full", "src/raii.c:malloc_by", "src/raii.c:raii_delete"]}
{"id": "C27", "title": "At most one handler runs, the first that matches", "statement": "In every program that leaves no try block by return or goto and whose release functions do not throw: if the body of a try block throws e then exactly the first textual handler that accepts e runs (catch(e), catch_any), at most one handler of the block runs, and if none accepts e none runs.", "quantifier": "all programs built from try/catch/finally/throw/rethrow, at any nesting depth, any exception names", "why_tests_cant": "Unbounded program nesting.", "anchors": ["include/exception.h:ex_try", "include/exception.h:ex_catch", "include/exception.h:ex_catch_any", "include/exception.h:ex_end_try", "src/except.c:ex_throw"]}
{"id": "C28", "title": "Finally always runs exactly once", "statement": "In every program that leaves no try block by return or goto: the finally section of a try block runs exactly once each time the block is entered: after normal completion, after a handled exception, after an unhandled one, and after a throw or rethrow from a handler; it runs after the handler and before propagation.", "quantifier": "all programs, all nesting depths", "why_tests_cant": "Unbounded program nesting.", "anchors": ["include/exception.h:ex_finally", "include/exception.h:ex_end_try", "src/except.c:ex_throw"]}
{"id": "C29", "title": "Exceptions propagate to the nearest enclosing handler with their identity", "statement": "In every program that leaves no try block by return or goto: an exception no handler of the block accepts, or rethrown, or thrown by a handler, reaches the dynamically next enclosing try block carrying the same name, file, line, function and message; one that no enclosing block accepts terminates the process with that exception.", "quantifier": "all programs, all nesting depths", "why_tests_cant": "Unbounded program nesting.", "anchors": ["src/except.c:ex_throw", "include/exception.h:rethrow", "include/exception.h:ex_end_try"]}
{"id": "C30", "title": "The handler stack is balanced", "statement": "When control leaves a try block, by any path, the thread's current handler is the one that was current when the block was entered, so a later throw goes to the enclosing block.", "quantifier": "all programs, all nesting depths", "why_tests_cant": "Unbounded nesting and paths.", "anchors": ["src/except.c:ex_update", "include/exception.h:ex_try", "include/exception.h:ex_finally", "include/exception.h:ex_end_try"]}
{"id": "C31", "title": "Throwing releases protected pointers exactly once, newest first", "statement": "When an exception is thrown, every pointer protected in the current try block and not unprotected since is passed to its release function exactly once, newest first; pointers of enclosing blocks are untouched.", "quantifier": "all sequences of protect/unprotect and pointer values", "why_tests_cant": "Unbounded sequences; depends on pointer values.", "anchors": ["src/except.c:ex_protect_ptr", "src/except.c:ex_unprotected_ptr", "src/except.c:ex_unwind_stack"]}
{"id": "C32", "title": "Guarded sections run their deferrals on every exit", "statement": "For every guarded section, whether its body completes, breaks, returns with _return or panics, every _defer registered and every _malloc made in it is executed/freed exactly once before the section is left, and the enclosing section's scope and handler settings are restored.", "quantifier": "all guard programs, nested arbitrarily", "why_tests_cant": "Unbounded nesting and exits.", "anchors": ["include/raii.h:guard", "include/raii.h:unguarded", "include/raii.h:guarded", "src/raii.c:guard_set", "src/raii.c:guard_reset", "src/raii.c:guard_delete"]}
{"id": "C33", "title": "A recovered panic does not propagate, an unrecovered one does", "statement": "If a function deferred in a guarded section calls _recover(e) with e the message of the panic, the panic stops at that section; if no deferred function recovers it, the panic continues to the enclosing section.", "quantifier": "all guard programs, all messages", "why_tests_cant": "Depends on whether memory was requested in the section and on all messages.", "anchors": ["src/raii.c:raii_is_caught", "src/raii.c:raii_deferred_run", "include/raii.h:guarded", "src/except.c:ex_throw"]}
{"id": "C34", "title": "A registered signal raises its exception", "statement": "After any sequence of ex_signal registrations, delivery of signal s throws the exception name most recently registered for s, registration succeeds for up to 32 distinct signals and is refused (leaving the table unchanged) beyond; different signals do not disturb each other.", "quantifier": "all registration histories", "why_tests_cant": "Unbounded histories.", "anchors": ["src/except.c:ex_signal", "src/except.c:ex_handler"]}
{"id": "C35", "title": "Arena blocks are in bounds, aligned and pairwise disjoint", "statement": "For every sequence of arena_alloc/arena_calloc requests (sizes >= 1) on any number of arenas, each returned block of n bytes lies inside memory owned by that arena, is 2-byte aligned, and does not overlap any other live block of any arena.", "quantifier": "all allocation histories over any number of arenas", "why_tests_cant": "Unbounded histories.", "anchors": ["src/arena.c:arena_alloc", "src/arena.c:arena_calloc"]}
{"id": "C36", "title": "Arena accounting is exact", "statement": "arena_capacity is exactly the number of bytes that can still be handed out without requesting a new chunk, and arena_total counts the bytes requested from the allocator less the header.", "quantifier": "all allocation histories", "why_tests_cant": "Unbounded histories.", "anchors": ["src/arena.c:arena_capacity", "src/arena.c:arena_total"]}
{"id": "C37", "title": "Clearing or freeing an arena releases its memory safely", "statement": "After arena_clear or arena_free no chunk is owned by two arenas, later allocations in any arena never overlap live blocks of another, every chunk is either reusable or returned to the allocator exactly once, and no freed memory is read.", "quantifier": "all histories over any number of arenas mixing allocation, clear and free", "why_tests_cant": "Unbounded histories.", "anchors": ["src/arena.c:arena_clear", "src/arena.c:arena_free", "src/arena.c:free_list"]}
{"id": "C38", "title": "A future delivers the value its function returned", "statement": "For every schedule, thrd_get returns only after the thread function has finished, and returns exactly the value it returned; thrd_is_done true implies a later thrd_get does not block.", "quantifier": "all interleavings of the worker and the waiting thread, any number of futures", "why_tests_cant": "Schedules cannot be enumerated.", "anchors": ["src/future.c:promise_set", "src/future.c:promise_get", "src/future.c:thrd_get", "src/future.c:thrd_is_done", "src/future.c:thrd_raii_wrapper"]}
{"id": "C39", "title": "A future delivers the exception its function threw", "statement": "If the thread function of a future ends with an unhandled exception, thrd_get/thrd_sync on that future throws that exception in the waiting thread; if it does not, no exception is raised on its behalf.", "quantifier": "all schedules of any number of workers", "why_tests_cant": "Depends on the interleaving of several workers.", "anchors": ["src/future.c:thrd_raii_wrapper", "src/future.c:promise_close", "include/raii.h:guarded_exception"]}
{"id": "C40", "title": "Waiting for a spawn scope yields all results in spawn order", "statement": "After thrd_sync, every result handle returned by thrd_spawn is ready and holds the value of its own function, and thrd_then folds over the results in spawn order; spawn bookkeeping arrays always have room for the next entry.", "quantifier": "all numbers of spawned threads, all completion orders, all CPU counts", "why_tests_cant": "Unbounded; depends on schedule.", "anchors": ["src/future.c:thrd_spawn", "src/future.c:thrd_sync", "src/future.c:thrd_then", "src/future.c:thrd_is_finish"]}
{"id": "C41", "title": "Objects are not used after they are released by the future API", "statement": "thrd_get and thrd_sync never access the future object after freeing it, for every outcome of the worker.", "quantifier": "all executions", "why_tests_cant": "Freed memory usually still holds its old contents in tests.", "anchors": ["src/future.c:thrd_get", "src/future.c:thrd_sync", "src/future.c:future_close"]}
{"id": "C42", "title": "Spinlock gives mutual exclusion", "statement": "For every number of threads and every interleaving, at most one thread is between the return of atomic_lock and its atomic_unlock; nothing other threads do takes the lock from its holder; when no thread holds it, any thread that wants it gets it within two steps of its own.", "quantifier": "all thread counts, all schedules", "why_tests_cant": "Schedules cannot be enumerated.", "anchors": ["include/catomic.h:c89atomic_spinlock_lock", "include/catomic.h:c89atomic_spinlock_unlock", "include/catomic.h:atomic_lock", "include/catomic.h:atomic_unlock"]}
{"id": "C43", "title": "Variadic argument packs return what was stored", "statement": "For every format string over l z u i d c s a x f p and matching arguments, args_in/get_args(params,k) returns the k-th argument with the value passed, and an index out of range is reported rather than dereferencing NULL.", "quantifier": "all format strings, all argument values", "why_tests_cant": "Infinitely many formats; string arguments of any length.", "anchors": ["src/raii.c:raii_args_ex", "src/raii.c:args_in", "src/raii.c:get_args"]}
{"id": "C44", "title": "Argument packs are released exactly once", "statement": "However many times get_args is called on a pack, its release is deferred exactly once and the pack is freed exactly once at scope exit.", "quantifier": "all histories of get_args calls on any packs", "why_tests_cant": "Unbounded histories.", "anchors": ["src/raii.c:raii_get_args", "src/raii.c:args_free"]}
{"id": "C45", "title": "Type predicates partition the tags", "statement": "is_value and is_instance are mutually exclusive, is_valid is their union, exactly the documented value tags are values and exactly the documented object tags are instances, RAII_NULL, RAII_NAN and out-of-range tags are neither.", "quantifier": "all integer tags", "why_tests_cant": "2^32 tag values including corrupted ones.", "anchors": ["src/raii.c:is_value", "src/raii.c:is_instance", "src/raii.c:is_valid", "src/raii.c:is_type"]}
{"id": "C46", "title": "Work-stealing deque hands out each task at most once and loses none", "statement": "For every interleaving of one owner (push/take) and any number of thieves (steal), each pushed task is obtained by at most one take/steal, only pushed tasks are obtained, and no task is lost; take on an empty deque reports empty.", "quantifier": "all schedules, all numbers of thieves, all task counts", "why_tests_cant": "Schedules cannot be enumerated.", "anchors": ["examples/work-steal.c:push", "examples/work-steal.c:take", "examples/work-steal.c:steal"]}
{"id": "C47", "title": "Guards in different threads do not interfere", "statement": "Panics behave in each thread as if no other thread existed: a panic runs that thread's own deferrals, is recovered exactly if one of them recovers it, and a panic outside sections is an ordinary uncaught exception, whatever guarded sections other threads enter and leave concurrently.", "quantifier": "all interleavings of guard entry, exit and panic in any number of threads", "why_tests_cant": "Depends on interleaving of accesses to process-wide handler settings.", "anchors": ["include/raii.h:guard", "src/raii.c:guard_reset", "src/except.c:exception_setup_func", "src/except.c:exception_unwind_func"]}
{"id": "C48", "title": "Memory protection translation preserves the requested rights", "statement": "On Windows, for every combination of PROT_READ/PROT_WRITE/PROT_EXEC that mmap or mprotect accepts, the memory has the rights asked for, and can be written or executed only if that was asked for; a mapping made with PROT_NONE has no rights. (Reading may come along with writing or executing: the system has no write-only pages.)", "quantifier": "all 32-bit protection masks", "why_tests_cant": "Finite but platform dependent: the unit tests never run on the affected platform's error paths.", "anchors": ["src/mman.c:__map_mmap_prot_page", "src/mman.c:__map_mmap_prot_file", "src/mman.c:mmap"]}
{"id": "C49", "title": "Intrusive lists behave as sequences", "statement": "For every history of the BSD list/queue operations (LIST, SLIST, SIMPLEQ, TAILQ: insert head/tail/before/after, remove) on valid elements, traversal yields exactly the abstract sequence and every link invariant holds, so later operations are safe.", "quantifier": "all operation histories, all numbers of elements", "why_tests_cant": "Unbounded pointer-manipulation histories.", "anchors": ["include/compat/sys/queue.h"]}
{"id": "C50", "title": "Red-black and splay trees behave as sorted sets", "statement": "For every history of RB_INSERT/RB_REMOVE/RB_FIND and SPLAY_INSERT/SPLAY_REMOVE/SPLAY_FIND, membership is as for a set keyed by the comparison, in-order traversal is sorted, and the red-black balance invariants hold.", "quantifier": "all operation histories and key orders", "why_tests_cant": "Unbounded histories; balance depends on order.", "anchors": ["include/compat/sys/tree.h"]}
{"id": "C51", "title": "Duplicating memory copies exactly the requested bytes", "statement": "str_memdup(src,n) and raii_memdup return a block holding exactly the n bytes at src followed by a terminator byte, without touching bytes outside.", "quantifier": "all buffers and lengths", "why_tests_cant": "Unbounded lengths.", "anchors": ["src/swar.c:str_memdup_ex", "src/swar.c:str_copy", "src/raii.c:raii_memdup"]}
{"id": "C52", "title": "A panicking deferral does not hang the section", "statement": "If a function deferred in a guarded section panics, the section is still left after finitely many steps: the process does not call the same function again for ever.", "quantifier": "all guarded sections and all functions deferred in them", "why_tests_cant": "it is a termination claim about every program; a test that hangs shows nothing and one that ends shows one case", "anchors": ["include/raii.h:guarded", "src/raii.c:raii_deferred_run", "src/except.c:ex_throw"]}
{"id": "C53", "title": "What a program says about a signal holds until it says otherwise", "statement": "A signal throws the exception the program last registered for it, or has its default effect if the program last reset it, however many try blocks and guarded sections are entered in between.", "quantifier": "all histories of registrations, resets and entered blocks", "why_tests_cant": "Unbounded histories; depends on the order of resets and blocks.", "anchors": ["src/except.c:ex_signal", "src/except.c:ex_signal_reset", "src/except.c:ex_signal_setup", "include/exception.h:ex_try"]}
{"id": "C54", "title": "A private mapping does not change the file", "statement": "Neither making a MAP_PRIVATE mapping of a file on Windows nor storing through it changes the file's contents or size.", "quantifier": "all files, offsets, lengths, protection masks and stores", "why_tests_cant": "All offsets and lengths relative to the file size; the tests do not run on that platform.", "anchors": ["src/mman.c:mmap", "src/mman.c:__map_mmap_prot_file", "include/compat/sys/mman.h:MAP_PRIVATE"]}
{"id": "C55", "title": "A mapping covers the range asked for", "statement": "If mmap succeeds on Windows, the view starts at the offset and has the length asked for, for every 64-bit (or, in a 32-bit program, 32-bit) offset and length; a range whose end wraps around fails.", "quantifier": "all offsets and lengths, both word sizes", "why_tests_cant": "Offsets above 2^32 and wrapping ranges need files no test creates.", "anchors": ["src/mman.c:mmap"]}
{"id": "C56", "title": "Threads registering with one scope lose nothing", "statement": "When several threads allocate from, or defer on, the same scope - as every worker of thrd_async and thrd_spawn does with the scope of the thread that started it - no freed memory is touched and, once all calls have returned, releasing the scope releases every block and runs every deferral exactly once.", "quantifier": "all schedules, all numbers of threads and of registrations", "why_tests_cant": "The loss needs two threads inside a few instructions; schedules cannot be enumerated.", "anchors": ["src/raii.c:raii_deferred_any", "src/raii.c:raii_array_append", "src/future.c:promise_set", "src/future.c:promise_create"]}
{"id": "C57", "title": "Throwing does not disturb scoped memory", "statement": "Whatever the history of try blocks, scopes, scoped allocations (malloc_full, calloc_full, malloc_default), stores into memory, protected pointers, scope releases and throws: nothing undefined happens, every scoped block is handed to its release function exactly when its scope is released (the thread's scope: at the end), with the block's own address, and a throw releases exactly the pointers protected in the block it leaves. Throwing always ends.", "quantifier": "all histories of enter/leave try, scope creation and release, allocations, stores, protect/unprotect and throws, all memory contents", "why_tests_cant": "what a throw releases depends on the contents of user memory, on leftover stack contents and on the relative order of allocations, releases and nested blocks; a test covers one order and one content", "anchors": ["src/raii.c: malloc_full, calloc_full, raii_deferred_run, raii_delete, raii_init, raii_unwind_set", "src/except.c: ex_protect_ptr, ex_unprotected_ptr, ex_unwind_stack, ex_throw, ex_terminate", "include/exception.h: ex_try, protected, unprotected"]}
{"id": "C58", "title": "Atomic operations are atomic", "statement": "Atomic loads, stores, exchanges, additions, subtractions, bit operations, test-and-set, clear and compare-exchange, built from the platform's compare-and-swap, behave as if each happened at once at some moment between its call and its return: any number of threads see only results some such order explains, and no update is lost or doubled. A thread has to try again only when another thread's operation took effect.", "quantifier": "all widths, all numbers of threads, all cells, all interleavings, all contents, even if the plain read before the compare-and-swap yields garbage", "why_tests_cant": "a lost or doubled update needs a particular interleaving of several threads' memory accesses", "anchors": ["include/catomic.h: c89atomic_fetch_add_explicit_64, c89atomic_fetch_sub_explicit_8, c89atomic_fetch_and_explicit_8, c89atomic_fetch_or_explicit_8, c89atomic_fetch_xor_explicit_8, c89atomic_exchange_explicit_64, c89atomic_load_explicit_8, c89atomic_compare_exchange_strong_explicit_8, c89atomic_compare_and_swap_8"]}
{"id": "C59", "title": "An atomic operation concerns its object only", "statement": "A generic atomic operation (atomic_load, atomic_store, atomic_exchange, atomic_fetch_add, atomic_fetch_sub, atomic_fetch_or, atomic_fetch_xor, atomic_fetch_and, atomic_compare_exchange_*) on an object of any of the published atomic types leaves in that object what the operation means for its type, returns what the object held, and changes no other byte of memory.", "quantifier": "all published atomic types, builds, operations, arguments, addresses and memory contents", "why_tests_cant": "what is damaged is memory beside the object, which a test of the object does not look at and which depends on the layout", "anchors": ["include/catomic.h: atomic_load, atomic_store, atomic_init, atomic_exchange, atomic_fetch_add, atomic_fetch_sub, atomic_fetch_or, atomic_fetch_xor, atomic_fetch_and, atomic_compare_exchange_strong, atomic_cas, atomic_bool, atomic_int", "examples/work-steal.c: done_task"]}
{"id": "C60", "title": "Atomic addition on floating-point numbers adds", "statement": "c89atomic_fetch_add and fetch_sub on float and double leave the sum (difference) of the old number and the argument whenever it is a number of that format, and return the old number; loads, stores and exchanges move numbers unchanged.", "quantifier": "all floats and doubles", "why_tests_cant": "2^64 (2^128) pairs of numbers", "anchors": ["include/catomic.h: c89atomic_fetch_add_explicit_f32, c89atomic_fetch_add_explicit_f64, c89atomic_fetch_sub_explicit_f32, c89atomic_fetch_sub_explicit_f64, c89atomic_store_explicit_f32, c89atomic_load_explicit_f32, c89atomic_exchange_explicit_f32"]}
{"id": "C61", "title": "Thread-local variables are private to their threads", "statement": "For variables declared with thrd_local or thrd_static, in the native and the emulated build: a thread reads through var() what it last wrote through var(), 0 if it wrote nothing, whatever other threads do and whatever is done with other variables; is_var_empty() is true exactly until that thread first calls var(); var() never returns NULL.", "quantifier": "all histories of any number of threads over any number of variables", "why_tests_cant": "the failures depend on the order in which variables are first used in the process and on two threads being in the first call at once", "anchors": ["include/cthread.h: thrd_local, thrd_static, thrd_local_get, thrd_local_setup", "src/raii.c: raii_init", "src/except.c: ex_init"]}
{"id": "C62", "title": "The work-stealing scheduler finishes every task once and then stops", "statement": "With n >= 1 tasks sharing one continuation: every task is run exactly once, the continuation exactly once and after every task, no memory is used or freed after it was freed, no worker leaves before the continuation ran, and the workers can always finish: no schedule gets stuck and none makes more than 3n+1 steps that get on with the work.", "quantifier": "all numbers of tasks and workers, all interleavings of the workers' accesses to shared memory", "why_tests_cant": "the interleavings of 24 workers cannot be enumerated, and the failure by truncation needs 2^32 tasks", "anchors": ["examples/work-steal.c: thread, do_work, join_work, print_task, done_task, main"]}
{"id": "C63", "title": "A program ends, having run what was deferred and the callbacks once", "statement": "When the thread that ends the program returns from main, calls exit, throws outside every try block or receives a signal there: the program ends; every function deferred on that thread's scope has run exactly once, newest first, with its argument; then, unless it was exit, the ctrl-c callback (if SIGINT is the cause) and the terminate callback have run once each; and the process ends through exit(), flushing streams and running the program's own atexit functions, unless a signal is the cause.", "quantifier": "all lists of deferrals, all behaviours of deferred functions and callbacks (return, throw, exit), all histories of handled signals, any number of threads having used a scope", "why_tests_cant": "re-entrancy at the end of the process: each combination of throwing or exiting user code needs its own process, and non-termination cannot be observed", "anchors": ["src/except.c: ex_terminate, ex_throw, ex_unwind_stack, ex_handler, ex_flags_reset", "src/raii.c: raii_init, raii_destroy, raii_deferred_free, raii_deferred_run, raii_unwind_set"]}
{"id": "C64", "title": "Memory taken from a scope with an arena lasts until free_arena has run the scope's deferrals", "statement": "Blocks taken from a scope made with unique_init_arena (malloc_by, calloc_by, malloc_arena, calloc_arena) do not overlap and stay allocated until the scope is ended. free_arena of a scope runs the scope's deferrals, newest first, once each, and every function among them still finds the memory it was given; then the memory of the scope is given back and the program goes on. Requests that cannot be met give NULL.", "quantifier": "all histories of creating, using and deleting scopes with and without arenas, all sizes and counts, all deferrals looking at blocks of any scope", "why_tests_cant": "what is read after free depends on the whole history of allocations and is invisible unless the allocator reuses the memory; overlap needs all pairs of blocks", "anchors": ["src/raii.c: unique_init, unique_init_arena, malloc_by, malloc_arena, calloc_by, calloc_arena, raii_delete, free_arena", "src/arena.c: arena_init, arena_alloc, arena_calloc, arena_clear, arena_free"]}
{"id": "C65", "title": "Try blocks on Windows run the right handler and lose nothing", "statement": "Built for Windows: of a try block with catch(X), the handler runs exactly if an exception named X leaves the block, and finds X as err; with catch_any it runs for every exception, thrown, signalled or raised by the processor, and finds its name. Any other exception, and one leaving a handler by throw or rethrow, gets to the next block around after this block's finally part has run, and ends the program if there is none.", "quantifier": "all programs of nested try blocks, throws, rethrows, signals and faults, all exception names, all contents of uninitialised contexts on the stack", "why_tests_cant": "the outcome depends on the nesting, on pairs of names and on what the stack happens to hold", "anchors": ["include/exception.h: ex_try, ex_catch, ex_catch_any, ex_finally, ex_end_try, rethrow (_WIN32)", "src/except.c: catch_seh, catch_filter_seh, ex_throw, ex_signal_seh, ex_signal_setup"]}
{"id": "C66", "title": "XOR queues behave as sequences, whatever the cookies", "statement": "After any history of XSIMPLEQ initialisations, insertions at head, at tail and after an element, and removals of the first element and of the one after an element, used as documented, XSIMPLEQ_FIRST, _EMPTY, _NEXT, _FOREACH and _FOREACH_SAFE give exactly the sequence of elements each queue should hold, also if the loop frees what it visits and elements move between queues with different cookies.", "quantifier": "all histories, numbers of queues and elements, addresses, cookies and previous memory contents, both widths of unsigned long", "why_tests_cant": "cookies are random and addresses depend on the platform: a test sees a handful of both", "anchors": ["include/compat/sys/queue.h: XSIMPLEQ_INIT, XSIMPLEQ_INSERT_HEAD, XSIMPLEQ_INSERT_TAIL, XSIMPLEQ_INSERT_AFTER, XSIMPLEQ_REMOVE_HEAD, XSIMPLEQ_REMOVE_AFTER, XSIMPLEQ_FOREACH, XSIMPLEQ_FOREACH_SAFE"]}
{"id": "C67", "title": "caught(E) in a catch_if handler is true for E and only for E", "statement": "In try … catch_if { if (caught(A)) … else if (caught(B)) … else … } finally … end_try the arm that runs is the first one asking for the error thrown (its message if it is a panic, else its name); the error is then handled; an error no arm asks for goes on after the last else; what an arm throws goes to the enclosing block; raii_message() in the handler is the error's string.", "quantifier": "all programs with any nesting of blocks, all names and messages, all contents of uninitialised stack memory, with and without an initialised thread scope", "why_tests_cant": "what caught compares with depends on errors noted earlier by the thread's scope, on where the scope was first used and on uninitialised stack memory", "anchors": ["include/raii.h: caught", "include/exception.h: ex_catch_if, ex_try, ex_finally, ex_end_try", "src/raii.c: raii_caught, raii_message, raii_unwind_set, raii_init", "src/except.c: ex_throw, ex_unwind_stack"]}
{"id": "C68", "title": "A recovery function of the thread's scope handles the error it marks", "statement": "If a function registered with raii_recover calls raii_caught with the error being thrown, the error is handled: it neither ends the process nor goes on to enclosing blocks; every registered function runs exactly once, the newest first.", "quantifier": "all programs, registrations, errors, blocks and handlers around the throw", "why_tests_cant": "depends on whether the scope holds memory and on which context first used it, in every combination", "anchors": ["src/raii.c: raii_recover, raii_defer, raii_caught, raii_deferred_run, raii_deferred_free", "src/except.c: ex_throw, ex_unwind_stack, ex_terminate"]}
{"id": "C69", "title": "Joining a spawn scope releases what belongs to it, and only that", "statement": "A program that allocates from its thread's scope, defers functions, starts futures with thrd_async, opens spawn scopes with thrd_scope, spawns, joins each once with thrd_sync, reads the results, destroys each once with thrd_destroy, never meets memory that was already given back; when the thread ends, every block the library took for it has been given back exactly once, and every function deferred has run exactly once, newest first.", "quantifier": "every sequence of such calls that keeps the rules of the interface, with any number of blocks, deferrals, futures, spawn scopes and processors, and every order in which the workers end", "why_tests_cant": "Freed memory usually still holds its old contents, so early release and leaks go unnoticed; the interleavings of several futures, scopes and joins are unbounded.", "anchors": ["src/future.c:thrd_scope", "src/future.c:thrd_spawn", "src/future.c:thrd_sync", "src/future.c:thrd_destroy", "src/future.c:promise_create", "src/future.c:promise_set", "src/raii.c:raii_deferred_clean", "src/raii.c:raii_deferred_free"]}
{"id": "C70", "title": "The status of a future tells whether its function is over", "statement": "thrd_is_done is true exactly if the function of the future is over and its outcome (value, NULL or exception) is known; thrd_is_finish is true exactly if that holds of every function spawned in the scope. What was reported done stays so, and every function that ends comes to be reported done.", "quantifier": "all schedules of any number of threads, all outcomes, all points in time including after thrd_get and thrd_sync", "why_tests_cant": "depends on the schedule; after the result was fetched the answer is read from freed memory, which in a test usually still holds its old contents", "anchors": ["src/future.c: thrd_is_done, thrd_is_finish, thrd_wait, promise_set, promise_close, thrd_get, thrd_sync"]}
{"id": "C71", "title": "getopt reads a command line as documented", "statement": "The loop while ((c = getopt(argc, argv, optstring)) != -1) ends for every option string and command line. It reports, in order, exactly the option letters of the words that are options, each with its argument (the rest of the word, or the next word; an optional argument only from the same word), unknown letters and missing arguments as '?' (or ':' if the option string asks for it). Afterwards argv holds the same words: the program's name, the options with their arguments in their order, then the operands in their order, and optind is where the operands begin. '--' ends the options. A '+' or '-' in front of the option string (or POSIXLY_CORRECT) selects how operands are dealt with and is not itself an option. Setting optind to 0 begins anew.", "quantifier": "all option strings, all command lines, all histories of calls and of values stored into optind", "why_tests_cant": "the words are exchanged in place over several calls with state kept in static variables; the outcome must be right for every arrangement of options, clusters, arguments and operands", "anchors": ["include/compat/getopt.c: getopt, _getopt_internal, _getopt_initialize, exchange, my_index, optind, optarg, optopt", "include/compat/getopt.h: getopt"]}
{"id": "C72", "title": "Exceptions and scoped memory in several threads do not disturb each other", "statement": "Threads may share scopes: a spawned thread allocates its result from its creator's scope, and scopes made by unique_init can be passed around. Whatever each thread does with try blocks, scoped allocation, protected pointers and throws, and in whatever order the threads get to do it: nothing undefined happens; every scoped block is handed to its release function when its scope is released and at no other time; a throw releases the pointers its own thread protected in the current block and nothing else. Threads that share nothing behave each exactly as if it were alone.", "quantifier": "all numbers of threads, all their histories of blocks, scopes, allocations, protected pointers and throws, all interleavings of the operations", "why_tests_cant": "the lists of protected pointers of different threads get linked through the scopes they share; whether a throw then follows another thread's list depends on the interleaving", "anchors": ["src/raii.c: malloc_full, calloc_full, raii_delete, raii_deferred_free, raii_destroy, raii_unwind_set", "src/except.c: ex_protect_ptr, ex_unprotected_ptr, ex_unwind_stack, ex_throw", "src/future.c: promise_set, thrd_returning, thrd_spawn, thrd_async"]}
{"id": "C73", "title": "The time of splay trees is what the Balance Theorem says", "statement": "The total access time for m operations and n inserts on an initially empty splay tree is O((m + n) lg n), as tree.h documents: there is a constant such that the loops of the calls SPLAY_INSERT, SPLAY_REMOVE, SPLAY_FIND, SPLAY_NEXT, SPLAY_MIN and SPLAY_MAX together take at most that constant times (m + n) lg n rounds. A complete SPLAY_FOREACH of n members takes O(n lg n).", "quantifier": "all orders of the elements, all histories of calls of any length on an initially empty tree, all traversals", "why_tests_cant": "it is a bound on the sum over every history, with one constant for all sizes; single calls do take time linear in the number of members, and a slow history looks like any other", "anchors": ["include/compat/sys/tree.h: SPLAY, SPLAY_MINMAX, SPLAY_INSERT, SPLAY_REMOVE, SPLAY_FIND, SPLAY_NEXT, SPLAY_FOREACH"]}
{"id": "C74", "title": "Locks and futures order memory on machines that reorder", "statement": "Two threads never hold the same lock. A program that touches shared data only while it holds the lock of that data, and the data of a future only in the function of the future or after thrd_get or thrd_wait has returned for it, has no data race: every such access happens before or after every other in the sense of C11. thrd_get returns the value of the function. Once thrd_wait (or thrd_is_done) has said that a future is ready, thrd_get does not wait. A lock nobody holds can be taken, the result of a function that has ended can be fetched, and no thread inside a call is ever stuck.", "quantifier": "all programs, numbers of threads, locks and futures, all schedules, and all behaviours the memory orders asked for allow: every choice of the message a load reads and of the place a store takes in the modification order", "why_tests_cant": "the reorderings that break a missing acquire or release do not happen on x86 at all and are rare elsewhere; a test passes with memory_order_relaxed everywhere", "anchors": ["include/catomic.h: c89atomic_spinlock_lock, c89atomic_spinlock_unlock, atomic_lock, atomic_unlock", "src/future.c: promise_set, promise_get, thrd_is_done, thrd_wait, thrd_get"]}
{"id": "C75", "title": "Directory streams on Windows report every file once", "statement": "A stream made by opendir reports, one at each readdir, every file found when it was opened or last rewound, in the order of the search, each under its name if that can be written in fewer than 260 bytes, else under its short name, else as ?, and then NULL. NULL means that all were reported. Streams do not disturb each other. rewinddir begins anew. opendir fails, with nothing left behind, when there is no memory, no such name or nothing to find. When every stream has been closed no memory and no search of Windows is left, none was closed twice and no block freed twice. No call on an open stream has undefined behaviour.", "quantifier": "all histories of calls on any number of streams, all contents of directories, names and code pages, all failures of malloc, of the conversion of names and of the search, all changes of the current directory by other threads", "why_tests_cant": "a failure of the search, of malloc or a change of the current directory between two calls inside opendir cannot be brought about by a test; histories of interleaved streams are infinitely many", "anchors": ["include/compat/dirent_msvc.h: opendir, _wopendir, readdir, _wreaddir, rewinddir, closedir, dirent_first, dirent_next"]}
{"id": "C76", "title": "Waiting for processes on Windows tells which child ended and how", "statement": "waitpid for a child, and wait for any, return the number of a child that has ended and store a status from which WIFEXITED and WEXITSTATUS give the low eight bits of its exit code; with WNOHANG they return 0 if no child asked about has ended; they fail with ECHILD if there is no such child or Windows refuses; without WNOHANG they wait only as long as no child asked about ends. No handle of Windows is left open. waitid does the same. Every status word is that of a process which exited, was killed or was stopped, and of only one of these.", "quantifier": "all numbers and options, all lists of processes, all processes running, ended or never ending, all refusals by Windows, all 32-bit status words", "why_tests_cant": "which process the list names first, refusals by Windows and a process that never ends are not under a test's control; leaked handles show only after many calls; status words are too many", "anchors": ["include/compat/wait.h: waitpid, wait, waitid, wait3, wait4, WIFEXITED, WEXITSTATUS, WIFSIGNALED, WIFSTOPPED"]}
{"id": "C77", "title": "Byte order and differences of times are exact", "statement": "A number converted by htobe16, htobe32 or htobe64 lies in memory with its high byte first, and be16toh, be32toh and be64toh give it back. timersub (and timespecsub) of two normal times stores their exact difference, again normal, whenever the difference of the seconds can be represented, also when the result is stored over one of the two, and changes nothing else.", "quantifier": "all numbers of 16, 32 and 64 bits, both byte orders of the machine, all pairs of normal times, all coincidences of the three pointers, all widths of long from 32 bits", "why_tests_cant": "2^64 numbers and 2^104 pairs of times; a borrow, an aliased result or a swapped half show for a few of them only", "anchors": ["include/compat/endian.h: be16toh, htobe16, be32toh, htobe32, be64toh, htobe64, ntohll", "include/compat/sys/time.h: timersub"]}
{"id": "C78", "title": "Strings handed out by a thread's scope are right, apart, lasting and freed once", "statement": "Whatever a thread called before, raii_memdup, raii_split, raii_concat, raii_replace, raii_encode64 and raii_decode64, on arguments that lie in the program's own memory or in earlier results, either report that memory ran out or return what was asked for: the copy, the array of words closed by NULL, the concatenation, the replaced text (or NULL if there is nothing to replace), the base64 text, the decoded string. A call changes no byte the program could read before; its result shares no byte with the program's memory or with another result, and keeps its contents, whatever is called later, until the thread's scope is released or the program stores into it. Encoding, doing anything, and decoding gives the string back. A release frees every string handed out exactly once, newest first.", "quantifier": "all histories of calls by a thread (stores and releases included), all memories, all strings, all addresses and refusals of the allocator, results used as arguments of later calls", "why_tests_cant": "a call that writes one byte too far, or an overlap of blocks, shows only for some layouts and some later histories; a block that is lost is not observable in a test", "anchors": ["src/raii.c: raii_memdup, raii_split, raii_concat, raii_replace, raii_encode64, raii_decode64, raii_init, raii_local, calloc_full, raii_deferred_clean", "src/swar.c: str_memdup_ex, str_split_ex, str_concat_ex, str_replace_ex, str_encode64_ex, str_decode64_ex"]}
{"id": "C79", "title": "The work-stealing deque is right also on machines that reorder memory accesses", "statement": "For every interleaving of one owner (push, take) and any number of thieves (steal), and whichever value each load gives among those the C11 memory model allows with the orders the code asks for: each task pushed is obtained exactly once or is still in the deque, only tasks pushed are obtained, and whoever obtains a task sees what was written before that task was pushed.", "quantifier": "all initial sizes, numbers of thieves, tasks, interleavings, choices of messages by loads; memory_order_consume read as acquire or as relaxed; seq_cst operations as strong as fences or not", "why_tests_cant": "a test shows the reorderings of one processor and one compiler; a missing release store shows perhaps once in a billion runs, and on x86 never", "anchors": ["examples/work-steal.c: init, resize, push, take, steal"]}
{"id": "C80", "title": "The atomic operations written in assembly language do what their C signatures say", "statement": "For every contents of memory and registers and wherever the compiler keeps the object and the operands, the assembly text of compare-and-swap, exchange, fetch-and-add and the fence, in both syntaxes and at every width, changes the object as the operation says, returns what it held, and changes no other memory and no register the compiler was not told about.", "quantifier": "all machine states, address modes, register choices that the constraints allow, stack frames, widths", "why_tests_cant": "a test fixes one compiler's choice of registers and address modes; the text is wrong only for some of them, and only when a loop is retried or a local variable is the object", "anchors": ["include/catomic.h: c89atomic_compare_and_swap_8..64, c89atomic_exchange_explicit_*, c89atomic_fetch_add_explicit_*, c89atomic_thread_fence (inline assembly)"]}
{"id": "C81", "title": "On x86 with its store buffers, programs that share memory by these atomics behave as if memory had no buffers", "statement": "A program whose threads touch shared memory only by the atomic operations of catomic.h, by plain loads, and by plain stores to what they own at the time (for example between lock and unlock of its spinlock), can do on x86 only what it can do when every instruction acts on memory at once; in particular the spinlock excludes, sections under it take effect as if run one after another, counting under it counts, and every thread can get through.", "quantifier": "all programs, all numbers of threads, all schedules of instructions and of buffered stores reaching memory, all sections of any length", "why_tests_cant": "the store buffers show only in rare timings; a test cannot produce each of them, and a program that is wrong without the lock prefix passes for years", "anchors": ["include/catomic.h: c89atomic_store_explicit_*, c89atomic_load_explicit_*, c89atomic_flag_test_and_set_explicit, c89atomic_flag_clear_explicit, c89atomic_thread_fence, c89atomic_spinlock_lock, c89atomic_spinlock_unlock"]}
{"id": "C82", "title": "Running out of memory loses nothing", "statement": "Whichever of their requests for memory or threads the system refuses, the functions that allocate on scopes, pack arguments, make scopes, arenas, guards and pools, and start threads either succeed or throw; nothing undefined happens; and when the program, which gave nothing to a scope after releasing it, has ended its guards, joined its threads, freed its packs and arenas and deleted its scopes, every block ever granted has been freed.", "quantifier": "all histories of calls, all choices of requests refused", "why_tests_cant": "each function asks for up to ten things, each of which may be refused, in states that depend on the history; tests do not refuse any.", "anchors": ["src/raii.c:malloc_full", "src/raii.c:calloc_full", "src/raii.c:raii_deferred_any", "src/raii.c:raii_args_ex", "src/raii.c:raii_get_args", "src/raii.c:unique_init_arena", "include/raii.h:guard", "src/raii.c:guard_set", "src/future.c:thrd_async", "src/future.c:thrd_scope", "src/future.c:thrd_spawn"]}
{"id": "C83", "title": "Unmapping and protecting affect exactly the pages named", "statement": "On Windows, after any history of mmap, munmap and mprotect: a page is mapped, with the rights last asked for (reading may come besides), exactly if it is by POSIX after the same calls with the same results; munmap of some pages succeeds; mmap covers no mapping it was not asked to cover; a call that fails changes nothing.", "quantifier": "all histories of calls, all addresses the system may pick, all pages", "why_tests_cant": "what munmap does depends on how earlier calls cut the address space into views; there are unboundedly many histories and ranges.", "anchors": ["src/mman.c:mmap", "src/mman.c:munmap", "src/mman.c:mprotect"]}
{"id": "C84", "title": "Signals may arrive at any moment", "statement": "With ex_signal_setup in force, whatever registered signals arrive at whatever moment - also within try, throw, a handler, finally or end_try - a program runs as it should: nothing undefined happens; each signal the program does not block is raised as its exception before the program comes to its end; the program's own code always runs with its own signal mask; each handler catches what was thrown or raised last; no exception is lost; a program comes to its end only with no exception in flight and is ended only by the exception in flight.", "quantifier": "all programs of nested try blocks, all signals, all moments at which they arrive, all orders in which the system delivers them, all initial masks", "why_tests_cant": "a signal may arrive between any two instructions; the windows that matter are a few instructions wide and a test hits them by chance only.", "anchors": ["src/except.c:ex_throw", "src/except.c:ex_handler", "include/exception.h:ex_try", "include/exception.h:ex_end_try", "include/exception.h:ex_setjmp"]}
{"id": "C85", "title": "Exceptions and scopes work with emulated thread-local storage", "statement": "In builds for compilers without thread-local storage (tcc, USE_EMULATED_TLS) a program of try, catch, finally and throw does what it does in other builds: an exception thrown in a try block reaches its handler and the program goes on; and a thread that asks for its scope gets a scope, one that asks for its exception context gets a context, whatever else the process keeps in thread-specific storage.", "quantifier": "all programs of nested blocks, all numbers of keys existing before and what they hold, all histories of all threads", "why_tests_cant": "which object a thread gets depends on the order in which threads first use the two variables and on keys made by other libraries; programs are unbounded.", "anchors": ["src/except.c:ex_throw", "src/except.c:ex_local", "src/except.c:ex_update", "src/raii.c:raii_local", "src/raii.c:raii_init", "include/cthread.h:thrd_local"]}
{"id": "C86", "title": "Bit counts and backward searches give the same answers on every platform", "statement": "countl_zero(x) gives the number of leading 0-bits of x and countr_zero(x) the number of trailing 0-bits, on Windows as elsewhere; the backward search of an 8-byte block gives the index of the last occurrence (or -1), and memrchrk/pmemrchrk the offset of the last occurrence in a buffer known to hold the byte.", "quantifier": "all 64-bit words, all blocks and buffers of any length, all byte values, both platform branches", "why_tests_cant": "2^64 words; the Windows branch is a different implementation that a test run on another system never executes, and the one test value can be right by accident.", "anchors": ["src/swar.c:countl_zero", "src/swar.c:countr_zero", "src/swar.c:_memchr8", "src/swar.c:_memrchr", "src/swar.c:memrchrk", "src/swar.c:pmemrchrk"]}
{"id": "C87", "title": "Thread pools can be used, asked, waited for and destroyed", "statement": "After thrd_pool(count, queue_count), whatever its threads do when, nothing undefined happens; thrd_is_finish answers; thrd_sync comes back without an exception; thrd_destroy gives back every block thrd_pool took.", "quantifier": "every number of threads, every interleaving of the threads with the caller, every sequence of calls on the pool", "why_tests_cant": "whether a thread has run before the caller goes on is up to the scheduler, and no test of the project calls thrd_pool at all.", "anchors": ["src/future.c:thrd_pool", "src/future.c:thrd_raii_wrapper", "src/future.c:thrd_is_finish", "src/future.c:thrd_sync", "src/future.c:thrd_destroy"]}
{"id": "C88", "title": "A command line with long options is read as documented", "statement": "Calling _getopt_internal with a table of long options until it returns -1 reports, in order, exactly what the command line says: --name, --name=value, --name value, abbreviations that stand for one option, unknown and ambiguous names, missing and superfluous arguments, single letters; variables are set through flag, the index is stored, operands end up behind optind, and no word outside argv is read. With long_only the same holds for -name.", "quantifier": "every option string, every table of long options, every command line, with and without POSIXLY_CORRECT, with and without long_only", "why_tests_cant": "the reading depends on the whole command line, on the order of the table and on what earlier calls left in static variables; the project has no test of it.", "anchors": ["include/compat/getopt.c:_getopt_internal", "include/compat/getopt.h:struct option"]}
{"id": "C89", "title": "A mapping call that fails says why and leaves nothing behind", "statement": "On Windows mmap, munmap, mprotect, msync, mlock and munlock fail exactly if their arguments are no good or the system refuses; errno then names the cause as POSIX does; a successful call reports no error; no handle stays open, whether a call fails or not; getpagesize always gives the same number.", "quantifier": "all histories of calls, all arguments, all answers the system may give to each call it is asked", "why_tests_cant": "the system refuses seldom and for reasons a test cannot bring about; which of its answers is read depends on what every call in between left", "anchors": ["src/mman.c:__map_mman_error", "src/mman.c:mmap", "src/mman.c:munmap", "src/mman.c:mprotect", "src/mman.c:msync", "src/mman.c:mlock", "src/mman.c:munlock", "src/mman.c:getpagesize"]}
{"id": "C90", "title": "msync makes stores permanent, mlock keeps pages in memory", "statement": "On Windows: once msync with MS_SYNC has returned 0, a crash of the machine at any later moment leaves on the disk what the pages named held, or something newer; at any moment a crash leaves in each page something it once held, never older than what was there before. Pages locked stay locked until they are unlocked, and munlock of pages of a mapping works whether they are locked or not.", "quantifier": "all crash points, all orders in which the system writes pages, all histories of stores and calls", "why_tests_cant": "it is about crashes at every moment and about writes the system makes when it likes", "anchors": ["src/mman.c:msync", "src/mman.c:mlock", "src/mman.c:munlock"]}
{"id": "C91", "title": "A thread-local variable can be set to another object and deleted, in the one thread", "statement": "For thrd_local(type, var, NULL): after var_update(&o) the calling thread's var() is &o: what is written through it is in o, what is written to o is seen through it. After var_del() is_var_empty() is true in the calling thread and its next var() is a new object holding zeros; its old object is given back, once. Other threads' variables are not affected. For thrd_local_plain, var() is what it was last set to, at first the initial value.", "quantifier": "all histories of any number of threads, variables and objects, any contents of fresh memory, both kinds of storage", "why_tests_cant": "it is about all interleavings of the threads' calls, and about memory never given back however long the program runs", "anchors": ["include/cthread.h:thrd_local", "include/cthread.h:thrd_local_plain", "include/cthread.h:thrd_local_del", "include/cthread.h:thrd_local_setup"]}
{"id": "C92", "title": "Compare-and-swap on Windows", "statement": "atomic_cas_32(obj, expected, desired), atomic_cas and atomic_swap: if the object holds what *expected does, it is set to desired, nothing else is changed and the result is true; otherwise *expected is set to what the object holds, nothing else is changed and the result is false. Any number of threads that change an object in loops while (!atomic_cas(p, &e, f(e))); lose no change and make none twice, and a thread that runs alone ends its loop.", "quantifier": "all contents of memory and all addresses, any number of threads, all schedules, any function f", "why_tests_cant": "lost updates depend on the schedule; what tcc compares the object with is an address that differs from run to run", "anchors": ["include/catomic.h:c89atomic_cas_32", "include/catomic.h:c89atomic_cas_64", "include/catomic.h:c89atomic_swap", "include/catomic.h:atomic_cas"]}
{"id": "C93", "title": "The kinds of files on Windows", "statement": "At most one of S_ISFIFO, S_ISDIR, S_ISREG, S_ISLNK, S_ISSOCK, S_ISCHR, S_ISBLK is true of a mode; S_ISBLK, S_ISSOCK and S_ISLNK are always false; DTTOIF(IFTODT(mode)) is of the same kind as mode, and IFTODT(mode) is DT_UNKNOWN for none of the kinds.", "quantifier": "all 2^32 modes", "why_tests_cant": "tests try modes that files have", "anchors": ["include/compat/sys/stat.h:S_ISLNK", "include/compat/sys/stat.h:S_ISBLK", "include/compat/sys/stat.h:IFTODT"]}
{"id": "C94", "title": "Sizes and alignment", "statement": "align_up(num, align) for a power of two align is the least multiple of align that is not less than num, whatever the types of the operands. Kb(x), Mb(x), Gb(x) are x times 1024, 1024^2, 1024^3.", "quantifier": "all values and integer types of the operands, all arguments that are sums of ints", "why_tests_cant": "it must hold up to the ends of the ranges and for every argument expression", "anchors": ["include/rtypes.h:align_up", "include/rtypes.h:Kb", "include/rtypes.h:Mb", "include/rtypes.h:Gb"]}
{"id": "C95", "title": "Clean-up routines on Windows", "statement": "The routine given to pthread_cleanup_push runs when the matching pthread_cleanup_pop is reached with an argument other than 0, or when the thread exits before; then all that are pushed run, the last pushed first. None runs otherwise and none runs twice, in C, in C++ and with structured exceptions.", "quantifier": "all programs of blocks, calls and exits, nested to any depth, that POSIX defines", "why_tests_cant": "it must hold for every nesting and every point of exit", "anchors": ["include/compat/pthread.h:pthread_cleanup_push", "include/compat/pthread.h:pthread_cleanup_pop", "include/compat/pthread.h:PThreadCleanup"]}
{"id": "C96", "title": "Blocks with finality", "statement": "After try { body } finality { last } end_try, last has run exactly once, after the body, and an exception of the body has been passed on to the enclosing block.", "quantifier": "all bodies, with blocks nested to any depth, all exceptions, all states of the thread", "why_tests_cant": "it must hold for every body and every enclosing block", "anchors": ["include/raii.h:finality", "include/exception.h:ex_catch_any", "include/exception.h:ex_finally", "tests/test-exceptions.c:test_finally"]}
{"id": "C97", "title": "Try blocks are statements in both builds", "statement": "A try block with any number of handlers, with finally or finality or neither, ended by end_try or end_trying, is one statement after expansion, for POSIX and for Windows: its braces match, __except and __finally follow a __try block, and the block's variable is in scope where it is used; so what compiles for one compiles for the other.", "quantifier": "all blocks, with any sequence of clauses, nested and following one another in any way", "why_tests_cant": "each text has to be compiled for each system; there is no end of texts", "anchors": ["include/exception.h:ex_try", "include/exception.h:ex_catch", "include/exception.h:ex_catch_any", "include/exception.h:ex_catch_if", "include/exception.h:ex_finally", "include/exception.h:ex_end_try", "include/exception.h:ex_finality", "include/exception.h:ex_end_trying"]}
{"id": "C98", "title": "The value of a guarded section", "statement": "A function that leaves a guarded section by _return(v) or unguarded(v) returns the value v has where it is written, after all deferred functions have run once, the newest first; if (c) _return(v); leaves the section only if c is not 0, and otherwise goes on.", "quantifier": "all bodies, all expressions v and c, all contents of variables and memory", "why_tests_cant": "it must hold for every expression and for whatever the deferred functions do", "anchors": ["include/raii.h:_return", "include/raii.h:unguarded"]}
{"id": "C99", "title": "What an uncaught exception says", "statement": "An exception no block handles ends the program with a report on stderr that gives the text of the exception as it was when it was thrown (the message of a panic, else the exception's name) and the function it was thrown in; in debug builds also the file and line and whether a release function threw while the stack was being unwound. A handler can read the message of the panic it caught.", "quantifier": "all histories of allocations, releases, protected pointers and caught exceptions before, all exceptions, panics and signals, all memory the message may lie in, both builds", "why_tests_cant": "whether the message is still there depends on everything allocated, protected and released before; reading freed memory often goes unnoticed in a test", "anchors": ["src/except.c:ex_print", "src/except.c:ex_terminate", "src/except.c:ex_throw", "src/except.c:ex_unwind_stack", "src/raii.c:raii_destroy", "src/raii.c:raii_message"]}
{"id": "C100", "title": "Threads that start threads, and the memory they leave to each other", "statement": "Whatever threads start threads with thrd_async, to any depth, and in whatever order all of them run, no thread uses memory of another that was given back: not the promise its result goes to and not the scope of the thread that started it; and what a thread started is given back when it ends.", "quantifier": "all trees of threads, all interleavings of the steps of all threads, all moments at which functions return or throw, scopes are released and futures are looked at", "why_tests_cant": "whether a creator ends or releases its scope before the function of a thread it started is over is a matter of scheduling, and the use of freed memory that follows seldom shows", "anchors": ["src/future.c:thrd_async", "src/future.c:thrd_raii_wrapper", "src/future.c:promise_create", "src/future.c:promise_set", "src/raii.c:raii_deferred_free", "src/raii.c:raii_destroy"]}
{"id": "C101", "title": "Functions called on a throw, and the data attached to a context", "statement": "What a program attaches to the current exception context with ex_data_set or ex_swap_set is what ex_data_get gives there until something else is attached or the swap is taken back with ex_swap_reset, whatever blocks and guarded sections run and whatever is thrown in between. A setup function and an unwind function the program installs (exception_setup_func, exception_unwind_func) are each called once for a throw outside guarded sections, the second with what the first attached; they are not called in guarded sections, which put them back when they end.", "quantifier": "all programs of blocks, handlers, guarded sections, throws, attachments and installations, nested to any depth, all contents of uninitialised contexts", "why_tests_cant": "it must hold for every nesting of sections and every moment something is attached, and contexts of blocks begin with whatever was on the stack", "anchors": ["src/except.c:ex_data_set", "src/except.c:ex_data_get", "src/except.c:ex_swap_set", "src/except.c:ex_swap_reset", "src/except.c:ex_throw", "src/raii.c:guard_set", "src/raii.c:guard_reset", "src/raii.c:raii_unwind_set"]}
{"id": "C102", "title": "Guarded sections and spawn scopes in each other", "statement": "thrd_scope, thrd_spawn, thrd_destroy, guarded sections and throws may be used in each other in any way. thrd_spawn starts a thread of the newest spawn scope that is not destroyed and is refused only if there is none; an exception thrown is noted with the innermost guarded section, and ends the process only outside all sections; no other memory is touched.", "quantifier": "all programs of one thread made of these calls, nested to any depth, and all states they are started in", "why_tests_cant": "it must hold for every nesting and order of sections, scopes and throws; a test fixes one", "anchors": ["src/future.c:thrd_scope", "src/future.c:thrd_spawn", "src/future.c:thrd_destroy", "src/future.c:thrd_raii_wrapper", "src/raii.c:guard_set", "src/raii.c:guard_reset", "include/raii.h:guard"]}
{"id": "C103", "title": "Any call may be the first of a thread", "statement": "A thread needs no call to set anything up: whatever a program's threads call, in whatever order and however their calls interleave, no call of the library uses a null pointer, provided arguments are right and sections are left only after they were entered.", "quantifier": "all histories of calls of any number of threads, interleaved in any way", "why_tests_cant": "it must hold for every call as the first of a thread and after every history of this and other threads", "anchors": ["src/raii.c:raii_local", "src/raii.c:raii_init", "src/raii.c:raii_mid", "src/raii.c:raii_defer", "src/raii.c:raii_recover", "src/raii.c:raii_caught", "src/raii.c:raii_message", "src/raii.c:raii_deferred_clean", "src/raii.c:raii_decode64", "src/future.c:thrd_spawn", "src/future.c:thrd_sync", "include/raii.h:_recover"]}
{"id": "C104", "title": "Atomic operations on signed objects", "statement": "An atomic operation on a signed object does to the number the object holds what its name says: additions and subtractions are exact if the result fits and wrap around otherwise, the operations on bits act on two's complement, comparison compares numbers; what is returned is the number the object held.", "quantifier": "all widths, all numbers held, all operands of the object's type, all operations, all compilers", "why_tests_cant": "it must hold for every number held and every operand, including those at the ends of the type's range", "anchors": ["include/catomic.h:atomic_fetch_add_explicit", "include/catomic.h:atomic_fetch_sub_explicit", "include/catomic.h:atomic_fetch_and_explicit", "include/catomic.h:atomic_fetch_or_explicit", "include/catomic.h:atomic_fetch_xor_explicit", "include/catomic.h:atomic_exchange_explicit", "include/catomic.h:atomic_load_explicit", "include/catomic.h:atomic_store_explicit"]}
{"id": "C105", "title": "Operands of the atomic macros may be any expressions", "statement": "atomic_store(p, e), atomic_fetch_add(p, e) and the other generic atomic operations act on the object p points to, with the value of e converted to the object's type, whatever expressions p and e are.", "quantifier": "all expressions of C without side effects as operands, all types of operands, all values of the variables in them, all types the macros cast to", "why_tests_cant": "it must hold for every expression a program may write as an operand and all values of its variables", "anchors": ["include/catomic.h:atomic_store", "include/catomic.h:atomic_fetch_add", "include/catomic.h:atomic_fetch_or", "include/catomic.h:atomic_load", "include/catomic.h:atomic_exchange", "include/catomic.h:c89atomic_store_explicit_i8"]}
{"id": "C106", "title": "Local variables in and after blocks", "statement": "A handler, a finally part and the code after a try block or a guarded section see every local variable with the value assigned to it last, whatever was thrown from wherever.", "quantifier": "all histories of entering and leaving blocks, assignments and throws, all declarations of variables, all compilers", "why_tests_cant": "whether an indeterminate variable has the value assigned last depends on where the compiler keeps it; it must hold for every compiler, every optimisation and every history", "anchors": ["include/exception.h:ex_try", "include/exception.h:ex_setjmp", "include/exception.h:ex_longjmp", "include/raii.h:guard", "include/raii.h:try", "src/except.c:ex_throw", "src/future.c:thrd_raii_wrapper"]}
{"id": "C107", "title": "Waiting for a lock ends", "statement": "A call of atomic_lock returns with the lock, provided the machine keeps running every thread that waits and every thread that gets the lock unlocks it again.", "quantifier": "all numbers of threads, all endless schedules of their steps, all values a test-and-set may store", "why_tests_cant": "a run that never ends cannot be tested, and whether one waits for ever depends on the schedule", "anchors": ["include/catomic.h:c89atomic_spinlock_lock", "include/catomic.h:c89atomic_spinlock_unlock", "include/catomic.h:atomic_lock", "include/catomic.h:atomic_unlock"]}
{"id": "C108", "title": "Room in a spawn scope on every machine", "statement": "On every machine and however many functions are spawned in a scope, every call of thrd_spawn returns or throws: it writes to no place beyond the lists of the scope and does not stop the program, whichever requests for memory are refused.", "quantifier": "all machines (numbers of processors, what the system tells of them), all numbers of calls, all patterns of refused requests, all limits of the allocator", "why_tests_cant": "a test runs on one machine, with its number of processors, and no test spawns 2^60 functions", "anchors": ["src/future.c:thrd_cpu_count", "src/future.c:thrd_scope", "src/future.c:thrd_spawn", "src/raii.c:try_realloc"]}
{"id": "C109", "title": "Formatted text into a buffer, with the headers for Windows", "statement": "snprintf(p, n, ...) leaves a terminated string of at most n-1 characters at p if n is not 0, writes nothing beyond p[n-1], and returns the length of the whole text, which may be asked for with n = 0.", "quantifier": "all texts, all sizes, all contents of the memory before", "why_tests_cant": "whether a reader runs beyond the buffer depends on the length of the text and on what the memory behind it holds", "anchors": ["include/compat/stdio.h:snprintf", "include/compat/config.h:snprintf"]}
{"id": "C110", "title": "Positions in large files, with the headers for Windows", "statement": "lseek goes to the position asked for and ftruncate gives the file the length asked for, or they fail and leave the file alone, for all offsets and lengths, in any sequence of calls.", "quantifier": "all files, all offsets and lengths, all sequences of calls", "why_tests_cant": "offsets range over 64 bits; tests use small files", "anchors": ["include/compat/unistd.h:lseek", "include/compat/unistd.h:ftruncate"]}
{"id": "C111", "title": "Values passed to and returned by the functions of threads", "statement": "A function started with thrd_async(fn, thrd_data(x)) reads with get_arg the value of x, and thrd_get gives the value that the function returned with thrd_value, for integers of every type on every machine; no memory is read but that of x.", "quantifier": "all machines (byte order, size of pointers), all integer types, all values, all contents of the memory behind the argument", "why_tests_cant": "a test runs on one machine, with a few values, on a stack where there is something behind the variable", "anchors": ["include/raii.h:thrd_value", "include/raii.h:thrd_data", "src/raii.c:get_arg", "src/future.c:promise_set", "src/future.c:thrd_get"]}
{"id": "C112", "title": "The call stack an exception came from", "statement": "In builds that record call stacks (USE_DEBUG), what a handler or finally section prints with ex_backtrace(err_backtrace), and what is printed for an exception nothing handles, is the call stack at the throw of the exception being handled, through however many blocks, handlers that throw on, and threads it came.", "quantifier": "all programs of nested try blocks with handlers and finally sections, throws, rethrows and results of threads; all contents of uninitialised memory", "why_tests_cant": "what is printed for an exception that passed through a block depends on uninitialised memory and on the nesting of the program", "anchors": ["src/except.c:ex_throw", "src/except.c:ex_trace_set", "src/except.c:ex_backtrace", "include/exception.h:rethrow", "src/future.c:promise_close"]}
