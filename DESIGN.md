# Formal model of c-raii in Lean 4: design

The code under study is `/repo` (zelang-dev/c-raii at the pinned commit).  It is read
as text; nothing of it is compiled or run.  `properties.jsonl` lists the properties,
`MANIFEST.json` says which theorem settles which property, `AXIOMS.md` which axioms
each of those theorems depends on, `seeded/LOG.jsonl` which wrong programs were tried
against them.

## Layout of the Lean project

| directory | content |
|---|---|
| `Verif/Model/*.lean` | the model, function by function, each definition citing the lines of `/repo` it transcribes and saying where it simplifies |
| `Verif/Spec/*.lean`  | the specifications: short definitions that do not use the model's helpers |
| `Verif/Proof/*.lean` | helper lemmas, invariants, refinements |
| `Verif/Props/*.lean` | the property theorems (one file per group of properties), each beside a concrete example that meets its hypotheses |

## Modelling conventions

* Integers: `size_t`, `uint64_t` words are `BitVec 64` where wrap-around or bit tricks
  matter, `Nat` or `Int` with explicit ranges or explicit `% 2^64` elsewhere.
* Memory: string code is modelled over a total byte memory (address to byte) so that
  what lies *around* a buffer is universally quantified; functions come with the set of
  addresses they read or write.  Linked structures are heaps from addresses to links.
* Undefined behaviour is a distinct outcome (`none`, `wild`, `crashed`, `uaf`), never a
  convenient value.  A theorem that a call returns `some …` therefore says it does not
  follow NULL, read freed memory or leave its buffer.
* Loops that need not end are given a number of rounds.  Running out of them is an
  outcome of its own; theorems say how many rounds are enough, for all inputs.
* External calls (allocator, signal delivery, thread creation, user callbacks) are
  parameters: an oracle, a trace event, or a nondeterministic step of a transition
  system.  Allocators may fail and may answer any address that is free.
* Concurrency: interleaving semantics (sequentially consistent, except C74, C79 and C81, which are about
  weak memory), a transition relation
  over a shared state with any number of threads; properties hold in every reachable
  state of every schedule.
* Configuration: 64-bit little-endian, not Windows (except C48, C54, C55, C65, C66, C75, C76, C77, C83,
  C86, C89, C90, C92, C93, C95, which are about the Windows code), no `USE_DEBUG` (so `RAII_ASSERT` is empty), native TLS (except
  C61, C85 and C91, which are also about the emulated one).

## Where the code disagrees with the property

When reading shows that the code violates the property, we prove (a) the negation,
with a concrete witness run of the model, and (b) a `_partial` theorem giving the part
that does hold - where possible an exact characterisation (iff) of when it holds.  The
full statement stays in the file (`def Cxx_Full`, refuted by `Cxx_full_false`).

## Plan per property

| id | what is modelled | how it is proved |
|---|---|---|
| C01 | `simd_strlen` over byte memory, with read set | word lemma for `haszero` (exact), induction over words, alignment prologue |
| C02 | `simd_strcmp`, `is_str_eq`, `is_str_empty` | exact characterisation (prefix / length 8), negation by witness |
| C03 | `_memchr`, `simd_memchr` | n > 8 exact; n < 8 and n = 8 characterised as failing |
| C04 | `_memrchr`, `simd_memrchr` | negation by witness, characterisation |
| C05 | `haszero`, `hasbyte`, `_memchr8` (8 options) | bit-level proof for all words |
| C06, C07 | `atou8`, `simd_atou`, `simd_atoi`, `htou8`, `simd_htou` | digit arithmetic on words, induction over blocks; signed numbers except the least (`C06_atoi_least`) |
| C08, C09 | `utoa2p`, `itoa8`, `simd_itoa`, composed with C06 | digit lemmas; exact for \|x\| < 2^31; negation outside |
| C10 | `_utoap`, `utoap` | digit lemmas |
| C11 | `_copySign`, `simd_atod` over rationals (no rounding) | negation + exact characterisation of what is computed |
| C12-C15 | base64 encoder/decoder with buffer writes, `is_base64` | induction by blocks of 3/4 |
| C16-C19, C51 | `strpos`, `str_split_ex`, `str_concat_ex`, `str_replace_ex`, `str_copy`, `str_memdup_ex` | list induction against join, replace-all, first index |
| C20 | `raii_array_*`, overflow helpers | invariant over append histories, word overflow lemmas |
| C21-C26 | scope with deferral array, protector, heap of blocks | state machine over operation histories; trace checker; memory-layout views for cancel/fire |
| C27-C31 | try/catch/finally/throw: the macro text interpreted with the context stack and setjmp/longjmp | refinement to exceptions as values, induction on programs |
| C32, C33, C52 | guard macros on top of the scope and exception models | refinement to a jump-free meaning, negation witnesses |
| C34, C53 | signal table, registration at try/guard entry | invariant over histories |
| C35-C37 | arenas, chunk list, free list | invariant over histories; negation witnesses for clear/free |
| C38-C41 | promise, future, spawn as a transition system | inductive invariants over all interleavings, witness schedules |
| C42 | test-and-set spin lock, n threads | inductive invariant |
| C43, C44 | argument packs | induction on the format; history invariant |
| C45 | tag predicates | order reasoning on all integers |
| C46 | work-stealing deque of `examples/work-steal.c` | inductive invariant over interleavings; negation witnesses; the histories for which it holds are exact: any step out of them can be continued to a wrong one |
| C47 | handler variables shared by n threads | witness schedules; serial histories |
| C48, C54, C55 | `mmap`/`mprotect` for Windows: protection, privacy, ranges | bit reasoning against a specification of what Windows does |
| C49 | `SLIST`, `LIST`, `SIMPLEQ`, `TAILQ` macros on a heap | refinement to sequences for every legal history |
| C50 | `RB_*` and `SPLAY_*` macros on a heap | zipper representation; refinement to sorted lists; red-black invariants; height bound |
| C56 | several threads registering with one scope | transition system; witness schedules; serial histories |
| C57 | throwing while scoped memory, protected pointers and nested blocks are in use | invariant and refinement over all tame histories; witnesses for the rest |
| C58 | the compare-and-swap loops of `catomic.h`, n threads, any width | forward simulation by the machine that performs each operation at once; charging argument for retries |
| C59 | the generic operations (`atomic_store`, ...) on a memory of bytes | modular arithmetic for every width; witnesses |
| C60 | the atomic floating-point operations against IEEE 754 values | arithmetic on bit patterns; witnesses |
| C61 | thread-local variables, native and emulated, any threads and variables | history invariants against "last write of this thread"; witnesses |
| C62 | the scheduler of `examples/work-steal.c` above the deque, any tasks and workers | inductive invariant counting joined tasks; measure for progress; witnesses |
| C63 | the end of the process: `exit`, uncaught exceptions, signals, `ex_terminate`, callbacks | deterministic machine over arbitrary user code; reachability for returning deferrals, invariant for throwing ones; witnesses |
| C64 | scopes with an arena over the arena model of C35-C37: creation, allocation, deferrals, `raii_delete`, `free_arena` | invariant over histories, extending the arena invariant with frame lemmas; witnesses |
| C65 | the Windows macros and the filters `catch_seh`, `catch_filter_seh` as an interpreter of try blocks over uninitialised contexts (`Model/Seh`), against a semantics of exceptions (`Spec/Seh`) | refinement for programs whose exceptions all meet a block for them, by induction on programs; exact conditions for what is caught and lost otherwise |
| C66 | the `XSIMPLEQ` macros over memory as words at addresses, cookie and links included, with 64-bit and 32-bit `unsigned long` (`Model/XorQueue`) | representation invariant (decoded chain per head), preserved by every macro, induction over histories; witness for 32-bit |
| C67 | `catch_if`, `caught`, `raii_message`, the error noted by the thread's scope, contexts and jumps, uninitialised `is_raii` (`Model/CatchIf`) | refinement of the jumps to a jump-free meaning by structural induction; witnesses for each other case, general in the names |
| C68 | as C67, with `raii_defer`/`raii_recover` and held memory (`Model/CatchIf`) | full statement refuted for every state of the thread outside blocks, and inside the block that first used the scope; when they run: by the refinement of C67 |
| C69 | one thread with numbered blocks: its scope, futures, spawn scopes, who holds each block (`Model/SpawnScope`); the rules of the interface as a book kept from the calls alone (`Spec/SpawnScope`) | full statement refuted (joining releases the thread's own scope and disarms it for good); by an invariant that counts every block once, over all histories: exactly when freed memory is met, exactly when something leaks, exactly which deferrals run; the full statement for programs that leave the thread's scope alone after the first join |
| C70 | `thrd_is_done`, `thrd_is_finish` in the model of futures | invariants over all histories; exact before the result is asked for, refuted afterwards |
| C71 | `getopt` on its static variables and `argv`; the meaning of a command line as a separate recursive reading of the words | `exchange` rotates two neighbouring blocks; invariant done ++ passed by ++ pending ++ to come; induction over the words to come, within it over the letters of a word; refuted for marked option strings, `W;` and the letter 255 |
| C72 | the model of C57 with any number of threads: contexts and lists of protected pointers per thread; scopes, records and memory common to all; each operation in one go | the operations of a thread that touch only what it owns commute with whatever is outside (patching lemma), so an interleaving is the same as the threads one by one; for shared scopes the invariant of C57 for every thread's view, each step of another thread leaving its records and the shape of the protectors alone |
| C73 | the `SPLAY_*` functions of C50; the time of a call is the least number of rounds its loops return with | one `SPLAY` as a relation of trees (`Res`), which the heap is shown to follow; potential method with sum of logarithms; the walk of `SPLAY_NEXT` in a traversal is charged to the next splay. False for `SPLAY_NEXT` on its own: `C73_full_false` by a family of trees |
| C74 | the lock, `promise_set`, `promise_get`, `thrd_wait` on a machine with views and messages (release/acquire C11, races on ordinary memory) | invariant on the history of each lock (a free lock is the latest message; after the message of a holder there is no room) and on what views know; `thrd_wait` loads relaxed and orders nothing: refuted by a run |
| C75 | `opendir` to `closedir` of `dirent_msvc.h` with the heap and the searches of Windows; what Windows answers comes with each call (`Model/Dirent`), against streams as lists of files (`Spec/Dirent`) | simulation, and an invariant that blocks and searches belong to exactly one stream; a longer absolute name at the second question and an error of the search refute the rest |
| C76 | `wait.h`: all five calls on a list of processes, what Windows answers as parameters (`Model/Wait`), against POSIX (`Spec/Wait`) | case analysis over every path; status words by arithmetic mod 256; a child that exited with 300 refutes the returned number; the rest is stated as what really happens (parent's number, two handles left, first child only, strangers, aborts, refused options) |
| C77 | the macros of `endian.h` on words and `timersub` on a store with three pointers that may coincide (`Model/Endian`), against bytes in memory and microseconds (`Spec/Endian`) | disjoint bit masks turn `or` into sums, then digits to base 256; linear arithmetic over the assignments |
| C78 | one thread, one byte memory, its scope, the blocks handed out; each call reads memory, allocates, registers `free`, stores (`Model/ThreadStrings` on top of `Model/Strings`, `Model/Base64`, `Model/Scope`); what was asked for, which memory is readable, what a delivery is (`Spec/ThreadStrings`) | invariant over histories (blocks apart, deferral array = blocks newest first), C12-C18 and C51 for the contents, frame lemmas for every later call |
| C79 | the deque of `examples/work-steal.c` on an operational C11 machine: messages, views, relaxed, acquire, release, `seq_cst` fences, compare-and-exchange (`Model/WeakDeque`); once, seen, histories that are calm (`Spec/WeakDeque`) | one inductive invariant: every view in the system covers the tasks below the `bottom` it knows, in the array it knows, unless the owner has taken them; witnesses for every machine |
| C80 | the inline assembly of `catomic.h`, instruction by instruction over registers and byte memory, with the memory operand and the free register as the compiler chose them (`Model/Asm`) | symbolic execution of each text; frame conditions; witness for `cmpxchg8b`, whose text changes an input-only register |
| C81 | x86-TSO (`Model/Tso`): any program of plain loads and stores, locked instructions and fences, n threads with queues of stores; the spinlock of the assembly builds with any sections | simulation by the machine without queues, under a discipline of ownership checked only there; serialisation and progress of sections under the lock; store-buffering witness |
| C82 | `Model/Refuse.lean`: the functions that make several requests, step by step, with an oracle that refuses any of them; who will free which block. | Counting invariant: each live block is held once, or lost, and as many are lost as a table says for the refusals (`C82_lost_partial`, `C82_end_partial`, `C82_iff`; `C82_lost_all` for programs that go on using a released scope); when the caller is told (`C82_told`), when something is undefined (`C82_undefined`); with memory enough all is freed (`C82_plenty`). The full statement is false (`C82_full_false`, `C82_guard_false`); `C82_each`: losses of the table that happen. What a throw itself frees is C57. |
| C83 | `Model/Views.lean`: the address space as disjoint views, in pages; `mmap`, `munmap`, `mprotect` by what the system calls do by their documentation (whether an address inside a view can be unmapped is a parameter). | Simulation of POSIX pages for all histories in which each `munmap` names one mapping whole (`C83_pages_partial`); that condition is exact (`C83_munmap`); `mmap` and `mprotect` without condition (`C83_others`); failures change nothing (`C83_failed`). Full statement refuted (`C83_full_false`, `C83_more_false`). |
| C84 | `Model/SigAsync.lean`: programs of nested try blocks run one access at a time by a definitional interpreter; signals arrive by an arbitrary schedule at each moment (in the program's code, in `ex_try` before and after `ex_setjmp`, in `ex_throw` while signals are blocked and after, between the parts of a block, in `finally`), wait if blocked, and are delivered in any order; contexts with their saved masks. `Spec/SigAsync.lean`: owed signals, exception in flight, lost exceptions, as functions of the trace. | Invariant over all schedules by induction on programs and passes: mask, delivery, what is caught, what ends the program, no undefined jump without an arrival in the window; all of it with nothing lost for signals that arrive in the program's own code. Refuted: window before `ex_setjmp`, window before `state` is assigned, a signal during `ex_throw`, mask not saved. |
| C85 | `Model/Except.lean` with the flag `emulated` (`src/except.c:404-409`); `Spec/ExceptTls.lean`: what a program does up to its first throw. `Model/TlsPair.lean`: the keys of `raii` and `except`, `tss_get` by key, all threads. | Induction on programs: in such builds every program ends at its first throw (`C85_first_throw_ends`), programs that do not throw are right. Invariant over histories: scope and context are one object if no key existed before; they are right if key 0 is another's and NULL. |
| C86 | `Model/SwarWin.lean`: `countr_zero`, `countl_zero`, the backward `_memchr8`, `_memrchr`, `simd_memrchr`, `memrchrk`, `pmemrchr`, `pmemrchrk` with the platform as an argument | Refuted on Windows (`C86_full_false`): `_BitScanReverse64` gives the index of the highest bit. Elsewhere all of it holds (`C86_unix_partial`, `C86_known_partial`); on Windows the exact wrong answers are proved for every input (`C86_windows_*`) |
| C87 | `Model/Pool.lean`: `thrd_pool`, the first step of its threads, `thrd_is_finish`, `thrd_sync`, `thrd_destroy` on a pool | Refuted (`C87_full_false`): for every count and schedule the first step of any thread dereferences NULL, `thrd_is_finish` follows an indeterminate pointer, `thrd_sync` throws, `thrd_destroy` releases nothing (`C87_destroy_leaks`, the exact set). Nothing else is undefined (`C87_otherwise_defined`); the pool of no threads works (`C87_empty_partial`) |
| C88 | `_getopt_internal` with a table, both settings of `long_only`, and `-W name`; the meaning of a name (`pick`) and of a command line as separate readings | the search loop yields `pick` by induction over the table; the invariant of C71 with the reading of one word as a parameter; full statement refuted: `-W` with an ambiguous abbreviation overruns `argv`, and with `long_only` the middle of a word is taken for a long option |
| C89 | `Model/MmanErr.lean`: every call of `src/mman.c` with the answers of the system as parameters, also what each leaves for `GetLastError`; handles of sections | case analysis of every answer (`C89_mmap_partial`, `C89_other_partial`, `C89_told`), induction over histories (`C89_handles`, `C89_page`); refuted: `errno` gets the system's number (`C89_wrong`), and a refused view what `CloseHandle` left (`C89_silent`) |
| C90 | `Model/Flush.lean`: pages of one shared mapping in memory, on their way and on the disk; `FlushViewOfFile`, `VirtualLock`, `VirtualUnlock` by their documentation | invariant: disk, what is on its way, memory, each no newer than the next (`C90_crash`); counting arrivals (`C90_durable_partial`); refuted: `msync` does not wait (`C90_lost`), `munlock` fails for pages not locked (`C90_unlock_fails`) |
| C91 | `Model/TlsMore.lean`: `var`, `is_var_empty`, `var_update`, `var_del` in both builds, objects of the program's own, blocks and keys given back; the `_plain` variants | simulation by the history (`C91_native` exact for all histories, `C91_emulated_partial` by C61's), invariants of keys, slots and freed blocks (`C91_lost`, `C91_freed`); refuted: old contents after `var_del` (`C91_stale`), emulated `var_update` copies (`C91_copy`), emulated `var_del` takes the variable from every thread (`C91_others`) and leaks their objects (`C91_lost`) |
| C92 | `Model/CasWin.lean`: the Windows functions on a memory of words, with Interlocked functions and by tcc; threads in loops, a step for each access | case analysis for all memories (`C92_cas_partial`, `C92_strong`), invariant: the object is the n-th iterate and each thread found what it would in some order (`C92_threads`), `C92_alone`; refuted for tcc: the object is compared with the address of the variable (`C92_tcc`), so loops never end (`C92_tcc_forever`) |
| C93 | `Model/Macros.lean`: the macros of `compat/sys/stat.h` | case analysis on the kind bits; refuted: a mode without kind is block device, link and socket (`C93_three`) |
| C94 | `Model/Macros.lean`: `align_up` with operands of 64, unsigned 32 and signed 32 bits; `Kb`, `Mb`, `Gb` of sums as they are written, in `int` | bit by bit; refuted: an `unsigned int` alignment loses the upper half (`C94_upper_half`), the end of the range (`C94_wraps`), 2 GiB or more overflow (`C94_gb`), no parentheses (`C94_sum`) |
| C95 | `Model/Cleanup.lean`: programs as trees; SEH and C++ run the end of each block, in C a list of the thread's entries | induction on the program, for all lists of routines pushed outside (`C95_cxx`, `C95_c`, `C95_seh_partial`); the specification itself: `C95_once`, `C95_exit`; refuted with SEH for an argument `a ? b : c` (`C95_seh_cond`); leaving a block otherwise: `C95_leave`, `C95_c_leave` |
| C96 | `Model/Blocks.lean`: `finality` for POSIX as a block of `Model/Except.lean` | from C28; refuted: the exception is not passed on (`C96_swallowed`, `C96_full_false`) |
| C97 | `Model/Blocks.lean`: the braces, keywords and uses of `ex_err` of the macros, a parser for them | induction on the code (`C97_posix`, `C97_windows_partial`); by the depth of the braces, exactly which blocks are statements for Windows (`C97_windows_only`); refuted: two handlers, `finally` without handler, `finality` (`C97_windows_not`, `C97_full_false`) |
| C98 | `Model/Leave.lean`: bodies with variables, blocks, deferred functions and returns, as the macros' text says | induction on the body against a semantics that evaluates first (`C98_value_partial`, `C98_all_ran`); refuted: memory of the section is read after it is freed (`C98_freed`), changed variables (`C98_changed`), `if` without braces (`C98_if`) |
| C99 | `Model/Report.lean`: `ex_throw` outside every block, `ex_unwind_stack`, `ex_terminate`, `ex_print`, with the heap blocks strings lie in | the state at the end computed for every history (`Rp.fatal_ok`), from it `C99_report_partial`, `C99_heard_partial`; refuted: messages in scoped memory are freed before they are printed (`C99_scoped`), signals print NULL (`C99_signal`), the heading of debug builds (`C99_heading`, `C99_stale`) |
| C100 | `Model/Kin.lean`: all threads at once, each with the steps of `thrd_raii_wrapper` and `promise_set`, the promises its scope holds and whether its thread-local storage still exists | invariant of histories in which every thread looks before it goes (`patient_inv`), from it `C100_patient_partial`, `C100_patient_alive`; they can always be continued to the end of all threads (`C100_patient_ends`); for all histories `C100_early` (a creator that goes first), `C100_orphan`, `C100_leak`; refuted by `C100_full_false`, `C100_full_false_nested` |
| C101 | `Model/Hooks.lean`: the current context's `data`, `prev` and flags, the two function pointers, `ex_throw`, blocks and guarded sections | events compared with what the calls alone say should be attached (`Spec/Hooks.lean`); relation of context and attached data by induction on programs (`run_tame`), from it `C101_tame_partial`; `C101_own`, `C101_own_once`, `C101_own_flag`, `C101_restored`, `C101_inside` for installed functions; refuted by `C101_full_false`; always lost: `C101_section`, `C101_lost`, `C101_handler`, `C101_nested`, `C101_init` |
| C102 | `Model/Slot.lean`: the field of the thread's scope that sections and spawn scopes share, `thrd_scope`, `thrd_spawn`, `thrd_destroy`, entering and leaving sections, `guard_set`; layout of the two structures | events compared with the spawn scopes and sections the calls alone say are open (`Spec/Slot.lean`); relation of the field and these by induction on programs (`run_right`), from it `C102_tame_partial`; refuted by `C102_full_false`; always wrong: `C102_refused`, `C102_refused_iff`, `C102_throw_undef`, `C102_outside`, `C102_older`, `C102_null`, `C102_dangling`; `C102_restored` |
| C103 | `Model/First.lean`: for each thread whether it has a scope, the field sections and spawn scopes share, what sections keep of it; every call as one step | null pointers used are read off the calls (`Spec/First.lean`: sections as balanced words); invariant relating the field and what is kept to the word of calls (`run1_inv`), exact for every history (`run_bad`): `C103_exact_partial`; refuted by `C103_full_false`; `C103_first`, `C103_apart`, `C103_begun` |
| C104 | `Model/Signed.lean`: the forms of the operations for signed types, as casts around the unsigned ones (`BitVec`) | specification on integers only (`Spec/Signed.lean`: range, bits by division, wrapping as a multiple of 2^w); `C104_signed_partial`, refuted in full by `C104_full_false`; the specification determines the outcome (`C104_determined`); `C104_exact`, `C104_tcc_add` |
| C105 | `Model/Paste.lean`: C's grammar of expressions as an inductive relation on tokens, the cast the macros write in front of an operand, evaluation with promotions, conversions and undefined behaviour | `C105_reading` (what the compiler reads); values modulo 2^w along the first operands (`modular`), nothing overflows in unsigned 64 bits (`defined`): `C105_modular_partial`, `C105_modular64_partial`, `C105_piece_partial`; exact for `p + i` (`C105_address`) and `atomic_fetch_or` (`C105_or`); refuted by `C105_full_false` |
| C106 | `Model/Locals.lean`: open blocks with the variables changed since they were entered; a jump makes variables without `volatile` indeterminate as C says | when a variable is indeterminate is read off the events (`Spec/Locals.lean`: `Lost`); invariant over all histories (`inv_step`): exact in `C106_exact_partial`; refuted by `C106_full_false`; `C106_volatile`, `C106_outside`, `C106_callers`, `C106_worker` |
| C107 | `Model/Spin.lean` again, over endless schedules (`Spec/Fair.lean`: `state`, `Fair`, `Unlocks`, `Waits`, `Gets`) | refuted by a periodic schedule for two threads (`C107_full_false`); `C107_passed_partial` (only endless passing by others keeps a thread out), `C107_finite_partial` (no further calls: everybody waiting is served; induction on the number of those waiting), `C107_somebody` |
| C108 | `Model/Cpus.lean`: `thrd_cpu_count` for three kinds of systems, the two lists of a scope in bytes, `size_t` arithmetic with wrapping, refused requests | invariant: room for the places filled, rounded up to a multiple of the count, at most one multiple more (`Proof/Cpus.lean`: `Inv`); exact in `C108_exact_partial` with `C108_zero`; refuted by `C108_full_false`; `C108_count`, `C108_room`, `C108_unknown`, `C108_returns` |
| C109 | `Model/Shim.lean`: `snprintf` as `_snprintf`, on a list of bytes | POSIX's function beside it (`Spec/Shim.lean`); equal exactly when the text is shorter than the buffer (`C109_exact_partial`); refuted by `C109_full_false`; `C109_string`, `C109_runs_on`, `C109_measure`, `C109_inside` |
| C110 | `Model/Shim.lean`: `lseek` and `ftruncate` with arguments converted to a 32-bit `long`; what comes of positions that are no `long` is a parameter | POSIX's functions beside them; exact conditions `C110_truncate_exact`, `C110_seek_exact`; histories `C110_small_partial`; refuted by `C110_full_false`; `C110_cut` |
| C111 | `Model/Word.lean`: bytes of integers in both byte orders, `thrd_data`, `get_arg`, the test for an argument of `args_for`, `thrd_value`, `promise_set`, `thrd_get` | for each byte order and width the exact set of values that come back (`C111_little_partial`, `C111_big_exact`, `C111_word_partial`, `C111_wide_exact`, `C111_wide_big`); `C111_arg_exact`, `C111_zero`, `C111_forty_three`, `C111_plain`, `C111_short`; refuted by `C111_full_false` |
| C112 | `Model/Trace.lean`: programs of blocks with `finally` sections, throws, rethrows, results of threads; the room for a call stack in each block's context | a specification that only follows which way each throw came (`Spec/Trace.lean`); what is printed is a function of it (`C112_exact_partial`), hence `C112_right_iff`, `C112_level_partial`, `C112_uncaught_empty`, `C112_beyond`; refuted by `C112_full_false` |

## Disagreements found

What the model shows about the code, with the theorem that says so.

| where | what happens | theorem |
|---|---|---|
| `simd_strcmp`, `is_str_eq` | equal to every 8-byte first string; a proper prefix compares equal | `C02_full_false` |
| `simd_memchr` | fewer than 8 bytes: wrong; exactly 8 and absent: does not end; absent: not NULL | `C03_full_false`, `C03_memchr_eight_absent_diverges` |
| `simd_memrchr` | result 3 too low, first block skipped | `C04_full_false` |
| `simd_itoa` | `abs` truncates to `int`: wrong or undefined outside \|x\| < 2^31 | `C08_wrong` |
| `simd_atod` | fraction ten times too small or of the wrong sign | `C11_full_false` |
| `str_decode64("")` | NULL, so the empty string has no round trip | `C12_empty` |
| `is_base64` | only the alphabet is checked | `C15_full_false` |
| `str_split` | every 8-byte string refused (it "equals" the empty one) | `C16_eight` |
| `str_replace` | empty needle: does not end | `C18_empty_needle_diverges` |
| deferral of a scope that releases itself | run again | `C22_full_false` |
| deferral after release, or by a deferral on its own scope | dropped, or freed memory read | `C23_full_false`, `C23_nested_wild` |
| `raii_deferred_cancel`, `raii_deferred_fire` | index computed from the element count as an address | `C24_full_false`, `C25_full_false` |
| `malloc_full` when the deferral array cannot grow | block leaked | `C26_full_false` |
| `return` out of a try block | current context dangles | `C30_dangling` |
| throwing with protected pointers | loop stops at a NULL or repeated value; unprotecting an older pointer drops newer ones; `is_raii` uninitialised | `C31_*` |
| `_return` out of nested guards, guards holding memory | outer deferrals skipped; panics not stopped | `C32_full_false`, `C33_full_false` |
| a panicking deferral | the section never ends | `C52_loops` |
| signals | a reset is undone by the next try; a signal in the window of its registration throws a NULL name | `C53_reset_undone`, `C34_window` |
| arenas | `LONG_MAX` rounds to a negative size; refused requests wrap the total; `arena_calloc` writes through NULL and truncates the product; `arena_total` is the latest chunk; a cleared arena uses memory it gave back; `arena_free` reads freed memory; older chunks leak | `C35_*`, `C36_*`, `C37_*` |
| futures | NULL results and NULL arguments crash; exceptions lost, misattributed, repeated; every `thrd_get`/`thrd_sync` reads freed memory | `C38_*`, `C39_*`, `C40_*`, `C41_*` |
| argument packs | `p` takes one argument too many; strings over 272 bytes are copied to NULL; out-of-range index follows NULL | `C43_*` |
| work-stealing deque | `take` reads `top` before lowering `bottom`: a task obtained twice; `take` on a fresh deque returns an unwritten cell | `C46_taken_twice`, `C46_fresh_take` |
| guards in several threads | handler variables are process-wide: recovery lost, crash | `C47_*` |
| `mmap` for Windows | `MAP_PRIVATE` ignored, the file is extended | `C54_*` |
| one scope, several threads | registration lost, freed memory written | `C56_*` |
| throwing with scoped memory | contents of a block released as a pointer; a zeroed or second block hides protected pointers; freed record read; the enclosing block's pointers released | `C57_*` |
| atomics built with tcc for other processors than x86 | compare-and-swap returns a flag: no load returns what the object holds, `compare_exchange` expecting 0 reports success exactly if it failed, an addition is repeated | `C58_tcc_load_never`, `C58_tcc_exchange`, `C58_tcc_loop`, `C58_tcc_load`, `C58_tcc_add` |
| `atomic_store` and the others | always 8 (32-bit builds: 4) bytes wide: neighbours of an `atomic_bool`, `atomic_int` overwritten; half of an `atomic_llong` ignored | `C59_*` |
| `c89atomic_fetch_add_f32`, `_f64` | add the bit patterns: 1 + 1 = 2^127; adding -0 negates | `C60_*` |
| emulated thread-local variables | an unused variable looks used; fresh objects hold junk; a second thread gets NULL or another variable's object while the first creates the key | `C61_*` |
| `join_work` of the scheduler | old count kept in an `int`: 2^32 + 1 tasks run the continuation at once; a task delivered twice (C46) is freed twice; no task at all: never ends | `C62_*` |
| the end of the process | a deferral that throws: never ends, deeper and deeper; one that calls `exit` runs again and drops the older ones; scope first used inside a try: deferrals dropped on a signal; an old SIGINT calls the ctrl-c callback and `_Exit` | `C63_*` |
| scopes with an arena | `free_arena` of a scope that handed out a block reads the chunk it has just freed; of one that did not, it leaves the free-chunk count 11 too high, after which clearing any other arena is undefined; `raii_delete` leaks the arena; a request near 2^64 yields a pointer and makes later blocks overlap | C64 |
| Windows: try blocks | `catch(X)` swallows every exception it is not for, and takes those with a name of 8 bytes, prefixes of `X`, and all if `X` begins with `panic`; a throw in a handler is lost with its `finally`; faults under `catch(X)` depend on an uninitialised pointer; signals are reported as `sig_segv` | `C65_*` |
| `XSIMPLEQ` on Windows | pointers cut to 32 bits: with a head above 4 GB, insertion at the tail writes elsewhere and the queue stays empty | `C66_high` |
| `caught(E)` without `raii_init` | dereferences NULL, also in `examples/try_catch_if.c` | `C67_no_scope` |
| `caught(E)` | compares with an old error once the thread's scope has noted one; does not know a panic by its message | `C67_stale`, `C67_junk`, `C67_panic` |
| throwing from the last `else` of `catch_if` | the handler starts again, for ever | `C67_else_throws` |
| `raii_recover` | marking the error handled does not stop it; in a block it makes the block's own handlers be skipped | `C68_root`, `C68_handler_skipped` |
| `thrd_sync` and the calling thread's own scope | it runs `raii_deferred_clean()`: the program's scoped memory and the promises of its other futures are freed, its deferrals run early; later ones never run and later memory is never freed | `C69_full_false`, `C69_other_future`, `C69_other_scope`, `C69_empty_scope`, `C69_released_iff`, `C69_deferrals` |
| status of a future after `thrd_get`/`thrd_sync` | reported as not done again, read from the freed future | `C70_after_get`, `C70_after_sync` |
| `getopt` | the mark `+` or `-` is taken off the option string only in the first call, so that later calls accept `-+` and report a missing argument as `?` where `:` was asked for; `W;` dereferences NULL; the letter 255 is reported as -1 | `C71_mark_accepted`, `C71_mark_missing`, `C71_W_crashes`, `C71_letter_255` |
| scoped memory shared by threads | a thread's result allocated from its creator's scope (`promise_set`) makes the creator's throw pass the *result* to the release function; a throw can release pointers another thread protected, or read a record freed by another thread | `C72_result_released`, `C72_others_pointer`, `C72_reads_freed` |
| `SPLAY_NEXT` (`tree.h:134-146`) | the header says every operation splays and bounds the total time by O((m + n) lg n); `SPLAY_NEXT` walks from the right subtree down without splaying what it finds, so repeated calls on one member can take n/2 rounds each | `C73_full_false`, `C73_next_walks` |
| `thrd_is_done`, `thrd_wait` (`future.c:125-132`) | the flag is loaded with `memory_order_relaxed`, so that the future is ready does not mean that what its function wrote may be read: a reader after `thrd_wait` races, only `thrd_get` orders | `C74_full_false` |
| Windows: `opendir` | the size `GetFullPathNameW` returns is not compared with the room given: if another thread changes the current directory to a longer one in between, the characters before `\*` were never written and the end is outside of the block | `C75_path_changes` |
| Windows: `readdir` | an error of `FindNextFileW` looks like the end of the directory, the remaining files are never reported | `C75_error_silent`, `C75_error_wrong` |
| `wait.h:458` | a successful wait returns the number of the parent of the process that ended, for `wait` the caller's own | `C76_full_false`, `C76_parent` |
| `wait.h:428` | with `WNOHANG` and a process that is still running, both handles stay open | `C76_handles` |
| `wait.h:398-412` | `wait` waits for the child listed first though another has ended | `C76_first_child` |
| `wait.h:329-332` | waiting for a process that is not a child succeeds | `C76_stranger` |
| `wait.h:354-358, 473-484` | `waitid` with `WEXITED` always fails, and stores `-EINVAL`; `waitid(P_ALL)` ends the program | `C76_waitid_refuses`, `C76_aborts` |
| `wait.h:421-425` | when Windows does not tell the exit code, the process counts as having exited with 0 | `C76_unknown_code` |
| `raii.c:196-198` | `raii_decode64` as the first call of a thread dereferences a NULL scope (`raii_local()` where its siblings use `raii_init()`) | `C78_first_decode`, `C78_full_false` |
| `swar.c:688-689`, `raii.c:436-443` | a string of `raii_concat` whose registration fails, and every string made after `raii_deferred_clean`, is never freed | `C78_lost`, `C78_frees_needs_memory` |
| `swar.c:866-867` | three padding characters: NULL is returned, the block stays until the release | `C78_padding` |
| work-stealing deque, C11 | `q->array` is stored relaxed after the copies: a thief can be given uninitialised memory although the owner only pushes; `take` can use an old `top` although no calls overlap, and a task is obtained twice | `C79_garbage`, `C79_stale` |
| `include/catomic.h:1434` (`xchg %5, %%ebx … pop %%ebx`) | the register that holds the lower half of `desired` is declared an input only, but is left holding `ebx`; a compiler that does not load it again for the next turn of a loop stores `ebx` | `C80_operand_lost`, `C80_retry` |
| `include/catomic.h:1434` (`push %%ebx` before the memory operand is used) | an object addressed through the stack pointer is looked for 4 bytes too low; one addressed through `ebx` where the lower half of `desired` points to | `C80_stack_operand`, `C80_ebx_operand` |
| `malloc_full`, `thrd_spawn`, `get_args`, ... when memory is refused | blocks asked for before are never freed; no room for a deferral is not reported to the caller at all | `C82_each` |
| `guard` whose scope is refused | `guard_set` is the handler already, and writes through the thread's empty `arena` | `C82_guard_false` |
| `munmap` on Windows | ignores the length: part of a mapping takes it whole, the middle cannot be unmapped, a second mapping in the range stays | `C83_full_false`, `C83_more_false` |
| `ex_try` and signals | a signal between `ex_update` and `ex_setjmp` jumps through an empty buffer | `C84_wild_false` |
| `ex_try` and signals | a signal between `ex_setjmp` and the assignment of `state` finds an arbitrary state: the handler may be skipped | `C84_skipped_false` |
| `ex_throw` and signals | a signal that arrives during `ex_throw` replaces the exception being thrown | `C84_lost_false` |
| `ex_setjmp` without `sigsetjmp` | a signal that was caught once stays blocked | `C84_nosave_false` |
| `ex_throw`, emulated thread-local storage | compares the context with `ex_local()`, which it is: every throw ends the process, in `try` blocks too | `C85_first_throw_ends` |
| `raii_local`, `ex_local`, emulated | ask for key 0 before their key is made: a thread's scope and its context are one object | `C85_same_object`, `C85_foreign_false` |
| `src/swar.c:56-64` `countl_zero` | On Windows it returns the index of the highest set bit, never the number of leading zeros; backward searches give offsets with their last three bits flipped | `C86_full_false`, `C86_windows_never_right`, `C86_windows_memrchrk` |
| `src/future.c:178-201` `thrd_pool` | threads get an argument whose promise is NULL and dereference it at once; `future.value` is never set; the scope is not kept, so that `thrd_destroy` does nothing | `C87_thread_undefined`, `C87_isFinish_undefined`, `C87_sync_refuses`, `C87_destroy_leaks` |
| `_getopt_internal`, `W;` | an ambiguous `-W fo` moves `optind` once too often: the next word is swallowed, or the next call reads behind the end of `argv`; for an option without argument `optarg` is the name instead of NULL | `C88_W_overruns`, `C88_W_swallows`, `C88_W_like_long` |
| `_getopt_internal`, `long_only` | after the first letter of `-ab` was read as a letter, the rest `b` is looked up as a long option | `C88_middle_of_word`, `C88_first_half_false` |
| `mmap` and the rest for Windows | `errno` is the number of the Windows error, and after a refused view what `CloseHandle` left | `C89_wrong`, `C89_silent` |
| `msync` for Windows | ignores its flags and does not wait for the disk | `C90_lost`, `C90_durable_false` |
| `munlock` for Windows | fails if a page is not locked | `C90_unlock_fails`, `C90_locks_false` |
| `thrd_local`, `var_del` | native: the next object holds what the last one did | `C91_stale`, `C91_full_false` |
| `thrd_local` emulated, `var_update` | copies the object instead of setting the variable to it | `C91_copy`, `C91_emulated_false` |
| `thrd_local` emulated, `var_del` | deletes the key for every thread: other threads lose their values, their objects are never given back | `C91_others`, `C91_lost` |
| `thrd_local_plain` | never returns the initial value: in its place the buffer's address, converted | `C91_plain_never`, `C91_plain_wrong` |
| `atomic_cas_32`, `atomic_cas`, `atomic_swap` by tcc for Windows, 32-bit | compare the object with the address of `*expected`, never set `*expected`; `atomic_swap` stores the address of a parameter | `C92_tcc`, `C92_tcc_swap`, `C92_tcc_forever`, `C92_full_false` |
| `S_ISBLK`, `S_ISSOCK`, `S_ISLNK` on Windows | true of every mode without kind bits | `C93_three`, `C93_full_false` |
| `align_up` with an `unsigned int` for `align` | clears the upper 32 bits of the result | `C94_upper_half`, `C94_align_false` |
| `Gb(2)`, `Mb(2048)`, `Kb(a + b)` | overflow of `int`; only the last term is multiplied | `C94_gb`, `C94_sum`, `C94_full_false` |
| `pthread_cleanup_pop(a ? b : c)` with SEH | the argument is not in parentheses: the routine may not run when the thread exits | `C95_seh_cond`, `C95_full_false` |
| `finality`, POSIX | swallows every exception; the comment of the test that uses it says it is passed higher up | `C96_swallowed`, `C96_full_false` |
| `try` blocks for Windows with two handlers, with `finally` but no handler, with a handler and `end_try` only, with `finality` | are not statements: braces do not match, or `__except` without `__try`; the two blocks with `finality` of `tests/test-exceptions.c` compile only because one follows the other | `C97_windows_only`, `C97_windows_not`, `C97_test` |
| `_return(v)`, `unguarded(v)` | `v` is evaluated after the deferred functions ran and the section's memory was freed | `C98_freed`, `C98_changed`, `C98_value_false` |
| `if (c) _return(v);` | returns also when `c` is 0, and then runs nothing that was deferred | `C98_if`, `C98_full_false` |
| `raii_panic(m)` with `m` in memory of the thread's scope | `m` is freed before it is printed, and before a handler can ask for it | `C99_scoped`, `C99_full_false` |
| a signal no block handles, without `USE_DEBUG` | NULL is printed with `%s` | `C99_signal` |
| protected pointer that is NULL when an exception is thrown, `USE_DEBUG` | the report (also of a later exception) says it came during stack unwinding | `C99_heading`, `C99_stale` |
| a thread ends, or releases its scope, before the function of a thread it started is over | when that function is over, a freed promise (and the storage of an ended thread) has been written | `C100_early`, `C100_orphan` |
| `thrd_async` after the calling thread released its scope | the promise is never freed | `C100_leak` |
| `ex_data_set(ctx, d)`, then any guarded section | `guard_reset` takes back a swap of the enclosing context that `guard_set` made on the section's own: `d` is no longer attached | `C101_lost`, `C101_full_false` |
| `ex_swap_set` twice, `ex_swap_reset` twice | the first swap is still there: one `prev` only | `C101_nested` |
| data attached before the first use of scoped memory in the thread | replaced by the scope | `C101_init` |
| `thrd_spawn` in a guarded section, `thrd_scope` outside it | panics "No `thrd_scope`!": both use one field | `C102_refused`, `C102_full_false` |
| `thrd_scope` in a guarded section (every thread's function runs in one), later a throw there | the pool is taken for the section's scope, and 16 bytes beyond it are written | `C102_throw_undef`, `C102_outside` |
| `thrd_spawn` without `thrd_scope` in a thread that has used scoped memory | a null pointer is used instead of the panic | `C102_null` |
| `raii_defer` (or `raii_mid`, `raii_recover`, `raii_caught`, `raii_message`, `raii_deferred_clean`, `thrd_sync`, `raii_decode64`) as a thread's first call | a null pointer is used; only the allocating calls, `guard` and `thrd_scope` make the scope | `C103_first`, `C103_full_false` |
| 32-bit `fetch_add` built with tcc for other processors than x86 (`catomic.h:1594`) | the value returned is cut to 16 bits: right exactly if the object held 0 to 65535 | `C104_tcc_add`, `C104_full_false` |
| generic atomic macros (`catomic.h:2735-2798` and others): casts in front of operands without parentheses | `atomic_store(p, x < y ? x : y)` compares `(uint64)x` with `y`; `0u - 1u` is passed as 2^64 - 1; `counters + i` for `int *counters` is the object `2 * i` further on | `C105_full_false`, `C105_borrow`, `C105_half`, `C105_overflow`, `C105_address` |
| `atomic_fetch_or(obj, arg)` (`catomic.h:2761`) casts `arg` to a pointer | `atomic_fetch_or(p, a + b)` sets the bits of `a + 8 * b` | `C105_or` |
| local variables assigned in a `try` block or guarded section | indeterminate in handlers and afterwards unless `volatile`; the result of a spawned function whose deferred function throws (`res`, `future.c:73-81`) is such a one | `C106_exact_partial`, `C106_full_false`, `C106_worker` |
| `atomic_lock` is not fair: a thread can wait for ever though every holder unlocks | true of every test-and-set lock; nothing in c-raii bounds the wait | `C107_full_false`, `C107_finite_partial` |
| `thrd_cpu_count` (`future.c:167-171`) ignores the result of `sched_getaffinity` | with more than 1024 possible processors the count is made of uninitialised memory; `thrd_spawn` divides by it | `C108_full_false`, `C108_zero` |
| `thrd_cpu_count` (`future.c:173-175`) turns -1 of `sysconf` into `SIZE_MAX` | every `thrd_spawn` panics | `C108_unknown` |
| `snprintf` is `_snprintf` (`compat/stdio.h:46`) | no terminator if the text is as long as the buffer or longer, -1 instead of the length | `C109_exact_partial`, `C109_runs_on`, `C109_measure` |
| `lseek` is `_lseek`, `ftruncate` is `_chsize` (`compat/unistd.h:32`, `:38`) | offsets and lengths lose their upper half: `ftruncate(fd, 2^32)` empties the file and reports success | `C110_truncate_exact`, `C110_seek_exact`, `C110_cut` |
| `thrd_get` follows a null pointer if the function returned `thrd_value(0)` (`future.c:25`, `:116`) | a function cannot return 0 or false; `examples/thrd_async.c` crashes for numbers that are not prime | `C111_zero` |
| the returned integer is stored as a pointer and read as a narrower member (`future.c:30`) | with the highest byte first only -1 comes back right | `C111_big_exact` |
| the argument's first word is taken for a type (`future.c:81`) | passing the `int` 43 may have the result followed as a pointer | `C111_forty_three`, `C111_plain` |
| `get_arg` copies 256 bytes from the variable passed (`raii.c:549`) | reads beyond the variable | `C111_arg_exact` |
| `ex_throw` given a call stack (`rethrow`, `ex_end_try`, `thrd_get`) does not record it (`except.c:386-387`) | a handler further out prints uninitialised memory, with an uninitialised count of addresses; a `finally` section can print the call stack of an earlier exception; for an exception nothing handles nothing is printed | `C112_exact_partial`, `C112_beyond`, `C112_uncaught_empty` |
| `simd_atoi` negates after reading (`swar.c:344-346`) | the text of the least `int64_t` is undefined | `C06_full_false`, `C06_atoi_least` |

## Trusted base

* Lean 4.33.0's kernel.  Every theorem depends at most on `propext`,
  `Classical.choice` and `Quot.sound`; `AXIOMS.md` lists them theorem by theorem.  There
  is no `sorry`, no `native_decide`, no `bv_decide` and no axiom of our own.
* That the definitions in `Verif/Model` transcribe the cited lines.  Nothing checks this
  but reading; the comments say where a definition simplifies.
* The conventions above: 64-bit little-endian, sequentially consistent interleavings
  (C74: release/acquire views, no load buffering),
  compilers that do not exploit undefined behaviour other than as modelled.
* For C48, C54 and C55 the description of Windows in `Verif/Spec/Mman.lean`; for the
  others, libc at its C-standard meaning (`strstr`, `memcpy`, `strncpy`, `setjmp`,
  `longjmp`, mutexes, thread creation and joining).

## What is modelled, file by file

| file | modelled | not modelled |
|---|---|---|
| `src/swar.c` | everything except the declarations and `simd` aliases | - |
| `src/raii.c` | arrays, scopes (also with arenas), at-exit registration, deferrals, scoped memory, guards, argument packs, tag predicates, string predicates, `raii_caught`, `raii_message`, `raii_recover`; refused requests (C82); the first call of a thread (C103) | printing |
| `src/except.c` | protection list, throwing, unwinding, signal table, signals at any moment (C84), termination and the report printed (C99), attached data and installed functions (C101), Windows filters and codes, recording call stacks (C112) | how call stacks are taken and printed (155-287), platform signal lists |
| `include/exception.h` | try/catch/catch_if/finally/rethrow macros, `finality` for POSIX (C96), their text (C97), context structure, the Windows variants, what a jump does to local variables (C106), `err_backtrace` (C112) | `C++` variants |
| `include/raii.h` | guard, `_defer`, `_recover`, `_return`, `_malloc` macros; the value given to `_return` and `unguarded` (C98); `thrd_value`, `thrd_data` (C111) | declarations, documentation |
| `src/arena.c` | everything | - |
| `src/future.c` | promise, future, spawn, sync, then, destroy; ownership of the blocks (C69); refused requests (C82); `thrd_pool` (C87); threads that start threads (C100); spawn scopes and guarded sections in each other (C102); `thrd_cpu_count` and the growth of the lists of a scope (C108); bytes of arguments and results (C111) | thin wrappers |
| `src/mman.c` | protection translation, ranges, privacy, what is mapped (C83), failures and error codes (C89), flushing and locking (C90) | nothing; what the system does is taken from its documentation |
| `include/compat/stdio.h`, `include/compat/unistd.h` | `snprintf` (C109), `lseek`, `ftruncate` (C110) | names replaced by functions of the same meaning |
| `include/compat/sys/queue.h` | `SLIST`, `LIST`, `SIMPLEQ`, `XSIMPLEQ`, `TAILQ` | debug poisoning |
| `include/compat/sys/tree.h` | `RB_*`, `SPLAY_*` | the function prototypes of `RBT_*` (no implementation in the repository) |
| `include/catomic.h` | test-and-set lock (also over endless schedules, C107), compare-and-swap loops, loads, stores and `compare_exchange` built on them, the generic and the floating-point operations, the inline assembly for x86 (`Model/Asm.lean`), also with store buffers (`Model/Tso.lean`), `atomic_cas_32`, `atomic_cas`, `atomic_swap` for Windows (C92), the forms for signed objects (C104), the operands of the generic macros as expressions (C105) | compiler intrinsics themselves, inline assembly other than for x86, memory orders weaker than release/acquire except in the lock and the flag of a promise (`Model/WeakMem.lean`) |
| `include/cthread.h` | `thrd_local`, `thrd_static` (`var`, `is_var_empty`: C61; `var_update`, `var_del`: C91) in both builds; `_plain` with the compiler's storage (C91) | `atexit`, what the end of a thread does, pthread emulation |
| `include/rtypes.h` | `align_up`, `Kb`, `Mb`, `Gb` (C94) | types, `container_of`, tracing |
| `include/compat/sys/stat.h` | the kinds of files for Windows (C93) | - |
| `include/compat/pthread.h` | `pthread_cleanup_push`, `pthread_cleanup_pop` in C, C++ and with SEH (C95) | declarations of functions of a library that is not in the repository |
| `include/compat/wait.h` | `waitpid`, `wait`, `waitid`, `wait3`, `wait4`, the macros for status words | `rusage`, `siginfo_t` (only cleared) |
| `include/compat/endian.h`, `sys/time.h` | the conversions for Windows, `timersub`, `timespecsub` (`time.h`) | Linux and macOS, which use those of the system |
| `include/compat/dirent_msvc.h` | `opendir`, `readdir`, `rewinddir`, `closedir` and their wide forms | `errno` |
| `include/compat/getopt.c` | `getopt`, and `_getopt_internal` with a table of long options (`getopt_long` and `getopt_long_only` are declared but defined nowhere) | messages |
| `examples/work-steal.c` | deque (interleavings, and with C11 memory orders), tasks, continuation, workers | reading from stores not made yet |
Not modelled at all: the allocator (`rpmalloc`, external), backtraces, printing other than the report of C99,
build files, tests.
