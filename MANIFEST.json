{
 "claims": [
  {
   "property": "C01",
   "status": "proved",
   "theorems": [
    "Verif.Props.C01_strlen"
   ],
   "note": "result and read footprint, all alignments and neighbourhoods"
  },
  {
   "property": "C02",
   "status": "partial",
   "theorems": [
    "Verif.Props.C02_strcmp_zero_exact",
    "Verif.Props.C02_strcmp_partial",
    "Verif.Props.C02_strcmp_sameLength",
    "Verif.Props.C02_full_false",
    "Verif.Props.C02_is_str_eq_exact",
    "Verif.Props.C02_is_str_empty_exact"
   ],
   "note": "the code violates the property (8-byte first strings, proper prefixes compare equal): negation proved with witness, exact characterisation proved"
  },
  {
   "property": "C03",
   "status": "partial",
   "theorems": [
    "Verif.Props.C03_memchr_long_partial",
    "Verif.Props.C03_memchr_variants",
    "Verif.Props.C03_memchr_absent_not_null",
    "Verif.Props.C03_memchr_noninterference",
    "Verif.Props.C03_memchr_eight_found",
    "Verif.Props.C03_memchr_short_wrong",
    "Verif.Props.C03_memchr_eight_absent_diverges",
    "Verif.Props.C03_full_false"
   ],
   "note": "holds for present bytes and n >= 8; fails for n < 8 and never yields NULL (proved)"
  },
  {
   "property": "C04",
   "status": "partial",
   "theorems": [
    "Verif.Props.C04_memrchr_offset_partial",
    "Verif.Props.C04_memrchr_wrong",
    "Verif.Props.C04_memrchr_first_block_missed",
    "Verif.Props.C04_full_false"
   ],
   "note": "the code violates the property (result 3 too low, first block skipped): negation proved"
  },
  {
   "property": "C05",
   "status": "proved",
   "theorems": [
    "Verif.Props.C05_haszero",
    "Verif.Props.C05_hasbyte",
    "Verif.Props.C05_memchr8",
    "Verif.Props.C05_printable_needs_ascii"
   ],
   "note": "Printable variants under their 7-bit precondition, shown necessary"
  },
  {
   "property": "C06",
   "status": "partial",
   "theorems": [
    "Verif.Props.C06_full_false",
    "Verif.Props.C06_atou",
    "Verif.Props.C06_atou_fits",
    "Verif.Props.C06_atou8",
    "Verif.Props.C06_atoi_partial",
    "Verif.Props.C06_atoi_least"
   ],
   "note": "Unsigned: proved for up to 23 digits. Signed: proved for all numbers but the least int64_t, which is negated after it was read as a positive number: undefined (C06_atoi_least, exact)."
  },
  {
   "property": "C07",
   "status": "proved",
   "theorems": [
    "Verif.Props.C07_htou"
   ],
   "note": ""
  },
  {
   "property": "C08",
   "status": "partial",
   "theorems": [
    "Verif.Props.C08_itoa_partial",
    "Verif.Props.C08_exact",
    "Verif.Props.C08_wrong",
    "Verif.Props.C08_full_false",
    "Verif.Props.C08_itoa8"
   ],
   "note": "abs() truncates to int: right exactly for -2^31 < x < 2^31, proved wrong or undefined for every other value"
  },
  {
   "property": "C09",
   "status": "partial",
   "theorems": [
    "Verif.Props.C09_roundtrip_partial",
    "Verif.Props.C09_roundtrip_iff",
    "Verif.Props.C09_full_false"
   ],
   "note": "holds exactly for -2^31 < x < 2^31"
  },
  {
   "property": "C10",
   "status": "proved",
   "theorems": [
    "Verif.Props.C10_utoap",
    "Verif.Props.C10_padText_value"
   ],
   "note": ""
  },
  {
   "property": "C100",
   "status": "partial",
   "theorems": [
    "Verif.Props.C100_patient_partial",
    "Verif.Props.C100_patient_alive",
    "Verif.Props.C100_patient_ends",
    "Verif.Props.C100_early",
    "Verif.Props.C100_orphan",
    "Verif.Props.C100_leak",
    "Verif.Props.C100_full_false",
    "Verif.Props.C100_full_false_nested"
   ],
   "note": "False as stated (C100_full_false, C100_full_false_nested): a creator that releases its scope or ends before the function of a thread it started is over leaves it a freed promise and an ended scope; C100_early says that this always ends in a use of freed memory. Proved for all histories in which every thread looks, with thrd_get or thrd_is_done, before it goes; such histories can always be continued until every thread is over (C100_patient_ends). Missing from the model: races on the scope (C56), values (C38), exceptions (C39)."
  },
  {
   "property": "C101",
   "status": "partial",
   "theorems": [
    "Verif.Props.C101_tame_partial",
    "Verif.Props.C101_section",
    "Verif.Props.C101_lost",
    "Verif.Props.C101_handler",
    "Verif.Props.C101_nested",
    "Verif.Props.C101_init",
    "Verif.Props.C101_own",
    "Verif.Props.C101_own_once",
    "Verif.Props.C101_own_flag",
    "Verif.Props.C101_restored",
    "Verif.Props.C101_inside",
    "Verif.Props.C101_full_false"
   ],
   "note": "The part about installed functions is proved (C101_own, C101_own_once, C101_own_flag, C101_restored, C101_inside). The part about attached data is false (C101_full_false): every guarded section takes it away (C101_section, C101_lost), so do throws (C101_handler) and nested swaps (C101_nested); proved for programs that begin sections only while nothing is attached, take back each swap before the next and attach anew in handlers."
  },
  {
   "property": "C102",
   "status": "partial",
   "theorems": [
    "Verif.Props.C102_tame_partial",
    "Verif.Props.C102_full_false",
    "Verif.Props.C102_refused",
    "Verif.Props.C102_refused_iff",
    "Verif.Props.C102_throw_undef",
    "Verif.Props.C102_outside",
    "Verif.Props.C102_restored",
    "Verif.Props.C102_older",
    "Verif.Props.C102_null",
    "Verif.Props.C102_dangling"
   ],
   "note": "Full statement refuted: sections and spawn scopes share one field. Proved for programs that spawn only in the section that opened the newest spawn scope and throw in no section that opened one; the rest is shown to go wrong."
  },
  {
   "property": "C103",
   "status": "partial",
   "theorems": [
    "Verif.Props.C103_exact_partial",
    "Verif.Props.C103_full_false",
    "Verif.Props.C103_first",
    "Verif.Props.C103_apart",
    "Verif.Props.C103_begun"
   ],
   "note": "Full statement refuted: raii_local() is NULL in a thread until a call that makes its scope. The histories that use a null pointer are characterised exactly."
  },
  {
   "property": "C104",
   "status": "partial",
   "theorems": [
    "Verif.Props.C104_full_false",
    "Verif.Props.C104_signed_partial",
    "Verif.Props.C104_determined",
    "Verif.Props.C104_exact",
    "Verif.Props.C104_tcc_add"
   ],
   "note": "Everything except the value returned by the 32-bit fetch_add with tcc on other processors than x86, which is cut to 16 bits."
  },
  {
   "property": "C105",
   "status": "partial",
   "theorems": [
    "Verif.Props.C105_full_false",
    "Verif.Props.C105_reading",
    "Verif.Props.C105_borrow",
    "Verif.Props.C105_half",
    "Verif.Props.C105_overflow",
    "Verif.Props.C105_piece_partial",
    "Verif.Props.C105_parentheses",
    "Verif.Props.C105_modular_partial",
    "Verif.Props.C105_modular64_partial",
    "Verif.Props.C105_address",
    "Verif.Props.C105_or"
   ],
   "note": "The cast of the macros binds to the first operand of the expression only. Operands in one piece, and sums, products and bit combinations calculated in signed or wide enough types, are passed as meant. Missing: what is false, comparisons, divisions, conditional expressions, narrow unsigned types."
  },
  {
   "property": "C106",
   "status": "partial",
   "theorems": [
    "Verif.Props.C106_full_false",
    "Verif.Props.C106_exact_partial",
    "Verif.Props.C106_volatile",
    "Verif.Props.C106_outside",
    "Verif.Props.C106_callers",
    "Verif.Props.C106_worker"
   ],
   "note": "Exact: a variable is indeterminate iff it is not volatile, was assigned in a block of its function before a throw came back to that block, and was not assigned since."
  },
  {
   "property": "C107",
   "status": "partial",
   "theorems": [
    "Verif.Props.C107_full_false",
    "Verif.Props.C107_passed_partial",
    "Verif.Props.C107_somebody",
    "Verif.Props.C107_finite_partial"
   ],
   "note": "The lock is not fair: refuted for two threads by an endless schedule in which every waiting thread keeps running and every holder unlocks. Proved: some waiting thread always gets the lock; a thread is kept out only by others getting the lock again and again; once no thread calls atomic_lock any more, every waiting thread gets the lock. Sequentially consistent steps on the one location."
  },
  {
   "property": "C108",
   "status": "partial",
   "theorems": [
    "Verif.Props.C108_full_false",
    "Verif.Props.C108_exact_partial",
    "Verif.Props.C108_zero",
    "Verif.Props.C108_count",
    "Verif.Props.C108_room",
    "Verif.Props.C108_unknown",
    "Verif.Props.C108_returns"
   ],
   "note": "Refuted: on Linux with more than 1024 possible processors the failed call is not noticed and the count may be 0, by which thrd_spawn divides. Proved: that is the only way the statement fails; the count is right otherwise; the lists have room for what they hold after any calls with any refusals and any number of functions, without wrapping; where the system cannot tell the count every call panics; without refusals every call returns. What the system calls do is taken from their documentation; blocks are below 2^63 bytes."
  },
  {
   "property": "C109",
   "status": "partial",
   "theorems": [
    "Verif.Props.C109_full_false",
    "Verif.Props.C109_exact_partial",
    "Verif.Props.C109_string",
    "Verif.Props.C109_runs_on",
    "Verif.Props.C109_measure",
    "Verif.Props.C109_inside"
   ],
   "note": "Right exactly for texts shorter than the buffer (or empty, with no buffer); otherwise no terminator is written and -1 is returned for longer texts; nothing is ever written outside. Formatting itself is not modelled; _snprintf as documented by Microsoft."
  },
  {
   "property": "C11",
   "status": "partial",
   "theorems": [
    "Verif.Props.C11_atod_exact",
    "Verif.Props.C11_atod_right_iff_partial",
    "Verif.Props.C11_atod_integer",
    "Verif.Props.C11_copySign_reversed",
    "Verif.Props.C11_full_false"
   ],
   "note": "over rationals; code scales the fraction by 10 too much and flips its sign: right iff the fraction is zero; texts without a dot are read as that integer"
  },
  {
   "property": "C110",
   "status": "partial",
   "theorems": [
    "Verif.Props.C110_full_false",
    "Verif.Props.C110_truncate_exact",
    "Verif.Props.C110_cut",
    "Verif.Props.C110_seek_exact",
    "Verif.Props.C110_small_partial"
   ],
   "note": "Right exactly below 2^31 (ftruncate, and lseek from the start), and in all histories whose offsets and positions stay below 2^31. Larger numbers are cut to 32 bits without notice. Positions beyond a long reached by small offsets are outside the documentation of _lseek and left open."
  },
  {
   "property": "C111",
   "status": "partial",
   "theorems": [
    "Verif.Props.C111_full_false",
    "Verif.Props.C111_arg_exact",
    "Verif.Props.C111_zero",
    "Verif.Props.C111_little_partial",
    "Verif.Props.C111_big_exact",
    "Verif.Props.C111_word_partial",
    "Verif.Props.C111_wide_exact",
    "Verif.Props.C111_wide_big",
    "Verif.Props.C111_forty_three",
    "Verif.Props.C111_plain",
    "Verif.Props.C111_short"
   ],
   "note": "Refuted: 0 cannot be returned, get_arg reads 256 bytes from the variable passed, narrow members are wrong with the highest byte first, the int 43 may be taken for an argument of args_for. Exact conditions for both byte orders and all widths."
  },
  {
   "property": "C112",
   "status": "partial",
   "theorems": [
    "Verif.Props.C112_full_false",
    "Verif.Props.C112_exact_partial",
    "Verif.Props.C112_right_iff",
    "Verif.Props.C112_level_partial",
    "Verif.Props.C112_uncaught_empty",
    "Verif.Props.C112_beyond"
   ],
   "note": "Refuted: a block prints the call stack of the last throw that came straight to it, which may be of another exception, and uninitialised memory if none did. Exact for all programs of the model, with finally sections. Missing: leaving blocks by return, printing in a finally section with no exception, Windows."
  },
  {
   "property": "C12",
   "status": "partial",
   "theorems": [
    "Verif.Props.C12_roundtrip_partial",
    "Verif.Props.C12_empty",
    "Verif.Props.C12_full_false"
   ],
   "note": "fails for the empty string only: its encoding decodes to NULL"
  },
  {
   "property": "C13",
   "status": "proved",
   "theorems": [
    "Verif.Props.C13_encode",
    "Verif.Props.C13_encode_refuses",
    "Verif.Props.C13_length"
   ],
   "note": ""
  },
  {
   "property": "C14",
   "status": "proved",
   "theorems": [
    "Verif.Props.C14_decode_inbounds"
   ],
   "note": ""
  },
  {
   "property": "C15",
   "status": "partial",
   "theorems": [
    "Verif.Props.C15_is_base64_exact",
    "Verif.Props.C15_accepts_partial",
    "Verif.Props.C15_full_false"
   ],
   "note": "only the alphabet is checked, not length or padding"
  },
  {
   "property": "C16",
   "status": "partial",
   "theorems": [
    "Verif.Props.C16_split_partial",
    "Verif.Props.C16_split_default_partial",
    "Verif.Props.C16_eight",
    "Verif.Props.C16_spec_meaning",
    "Verif.Props.C16_full_false"
   ],
   "note": "every 8-byte string is refused because is_str_eq(s,\"\") is true for it"
  },
  {
   "property": "C17",
   "status": "proved",
   "theorems": [
    "Verif.Props.C17_concat"
   ],
   "note": ""
  },
  {
   "property": "C18",
   "status": "proved",
   "theorems": [
    "Verif.Props.C18_replace",
    "Verif.Props.C18_pieces",
    "Verif.Props.C18_empty_needle_diverges"
   ],
   "note": ""
  },
  {
   "property": "C19",
   "status": "proved",
   "theorems": [
    "Verif.Props.C19_strpos",
    "Verif.Props.C19_total",
    "Verif.Props.C19_beyond_2GiB"
   ],
   "note": ""
  },
  {
   "property": "C20",
   "status": "proved",
   "theorems": [
    "Verif.Props.C20_history",
    "Verif.Props.C20_append",
    "Verif.Props.C20_size_arithmetic",
    "Verif.Props.C20_init_reset"
   ],
   "note": "Element size at least 1; allocator answers are arbitrary."
  },
  {
   "property": "C21",
   "status": "proved",
   "theorems": [
    "Verif.Props.C21_lifo",
    "Verif.Props.C21_defined",
    "Verif.Props.C21_reverse"
   ],
   "note": "Trace checker Lifo over the observable history; deferred functions may operate on other scopes."
  },
  {
   "property": "C22",
   "status": "partial",
   "theorems": [
    "Verif.Props.C22_full_false",
    "Verif.Props.C22_idempotent_partial"
   ],
   "note": "Proved, including re-use after release, when deferred functions leave their own scope alone. Full statement refuted: a deferred function that releases its own scope is run again."
  },
  {
   "property": "C23",
   "status": "partial",
   "theorems": [
    "Verif.Props.C23_full_false",
    "Verif.Props.C23_full_false_reuse",
    "Verif.Props.C23_full_false_nested",
    "Verif.Props.C23_nested_wild",
    "Verif.Props.C23_none_dropped_partial"
   ],
   "note": "Proved up to the first release. Refuted: deferrals after a release, and deferrals made by a deferred function on its own scope, are dropped (or read a freed block when the array grows)."
  },
  {
   "property": "C24",
   "status": "partial",
   "theorems": [
    "Verif.Props.C24_full_false",
    "Verif.Props.C24_unaligned",
    "Verif.Props.C24_cancel_partial",
    "Verif.Props.C24_standard_partial"
   ],
   "note": "Refuted for every implementation of pointer subtraction: the index arithmetic uses the element count as base address. Works exactly at counts described in the partial theorems."
  },
  {
   "property": "C25",
   "status": "partial",
   "theorems": [
    "Verif.Props.C25_full_false",
    "Verif.Props.C25_unaligned",
    "Verif.Props.C25_fire_partial"
   ],
   "note": "As C24."
  },
  {
   "property": "C26",
   "status": "partial",
   "theorems": [
    "Verif.Props.C26_full_false",
    "Verif.Props.C26_freed_once_partial",
    "Verif.Props.C26_mid"
   ],
   "note": "Proved when the deferral array never fails to grow; refuted otherwise (block leaked). raii_last_mid tells which of the two happened (C26_mid)."
  },
  {
   "property": "C27",
   "status": "proved",
   "theorems": [
    "Verif.Props.C27_program",
    "Verif.Props.C27_first_handler",
    "Verif.Props.C27_no_handler",
    "Verif.Props.C27_release_throws"
   ],
   "note": "Refinement of setjmp/longjmp and the macro text to exceptions as values, by induction on programs; release functions that throw terminate the process."
  },
  {
   "property": "C28",
   "status": "proved",
   "theorems": [
    "Verif.Props.C28_finally_once",
    "Verif.Props.C28_finally_any"
   ],
   "note": "From the refinement."
  },
  {
   "property": "C29",
   "status": "proved",
   "theorems": [
    "Verif.Props.C29_propagates",
    "Verif.Props.C29_which",
    "Verif.Props.C27_program"
   ],
   "note": "All five fields of the exception are carried."
  },
  {
   "property": "C30",
   "status": "partial",
   "theorems": [
    "Verif.Props.C30_full_false",
    "Verif.Props.C30_dangling",
    "Verif.Props.C30_balanced_partial"
   ],
   "note": "return out of a try block leaves a dangling current context; proved for all other ways out."
  },
  {
   "property": "C31",
   "status": "partial",
   "theorems": [
    "Verif.Props.C31_full_false",
    "Verif.Props.C31_equal_values",
    "Verif.Props.C31_unprotect_older",
    "Verif.Props.C31_uninitialised",
    "Verif.Props.C31_released_partial"
   ],
   "note": "The unwinding loop stops at a NULL newest pointer or at a value equal to the previous one; unprotecting an older pointer drops newer ones; is_raii of the block context is uninitialised."
  },
  {
   "property": "C32",
   "status": "partial",
   "theorems": [
    "Verif.Props.C32_full_false",
    "Verif.Props.C32_full_false_by_return",
    "Verif.Props.C32_try_inside",
    "Verif.Props.C32_return_nested",
    "Verif.Props.C32_deferrals_partial",
    "Verif.Props.C32_section_partial"
   ],
   "note": "False in full: _return out of nested sections skips the outer section's deferrals; a section holding memory releases it when an exception is thrown inside it even if an inner try catches it. Proved by refinement to a jump-free meaning for all other programs."
  },
  {
   "property": "C33",
   "status": "partial",
   "theorems": [
    "Verif.Props.C33_full_false",
    "Verif.Props.C33_full_false_by_message",
    "Verif.Props.C33_memory",
    "Verif.Props.C33_wrong_message",
    "Verif.Props.C33_strEq",
    "Verif.Props.C33_recover_partial",
    "Verif.Props.C33_section_partial"
   ],
   "note": "False in full: a section holding memory never stops a panic; _recover with an 8-byte string or a prefix recovers other panics. Proved for sections without memory and unambiguous messages."
  },
  {
   "property": "C34",
   "status": "proved",
   "theorems": [
    "Verif.Props.C34_refines",
    "Verif.Props.C34_latest",
    "Verif.Props.C34_limit",
    "Verif.Props.C34_window"
   ],
   "note": "For all registration histories. C34_window records that a signal arriving while it is first being registered throws the NULL name."
  },
  {
   "property": "C35",
   "status": "partial",
   "theorems": [
    "Verif.Props.C35_blocks_partial",
    "Verif.Props.C35_full_false",
    "Verif.Props.C35_long_max",
    "Verif.Props.C35_total_wraps",
    "Verif.Props.C35_calloc_refused",
    "Verif.Props.C35_calloc_overflow"
   ],
   "note": "Full statement false: LONG_MAX rounds up to a negative size, refused requests make the total wrap, arena_calloc writes to NULL when refused and truncates the product. Proved for all allocation histories over any number of arenas below 2^63."
  },
  {
   "property": "C36",
   "status": "partial",
   "theorems": [
    "Verif.Props.C36_capacity_partial",
    "Verif.Props.C36_total_latest",
    "Verif.Props.C36_total_partial",
    "Verif.Props.C36_total_full_false",
    "Verif.Props.C36_total_two_chunks",
    "Verif.Props.C36_not_an_arena"
   ],
   "note": "Capacity exact in all moderate allocation histories; total is the size of the latest chunk requested, not the sum (full statement false)."
  },
  {
   "property": "C37",
   "status": "partial",
   "theorems": [
    "Verif.Props.C37_clear_partial",
    "Verif.Props.C37_full_false",
    "Verif.Props.C37_two_arenas",
    "Verif.Props.C37_one_arena",
    "Verif.Props.C37_free_reads_freed",
    "Verif.Props.C37_clear_twice",
    "Verif.Props.C37_free_spoils_clear",
    "Verif.Props.C37_leak"
   ],
   "note": "Full statement false: a cleared arena keeps using the chunk it gave back, arena_free reads freed memory, older chunks leak. Proved for arenas not used after clearing, cleared when the free list is empty."
  },
  {
   "property": "C38",
   "status": "partial",
   "theorems": [
    "Verif.Props.C38_Full",
    "Verif.Props.C38_full_false",
    "Verif.Props.C38_null_crashes",
    "Verif.Props.C38_done_waits",
    "Verif.Props.C38_value_partial",
    "Verif.Props.C38_ends_partial",
    "Verif.Props.C38_completes",
    "Verif.Props.C38_null_argument",
    "Verif.Props.C38_done"
   ],
   "note": "Proved for every schedule of any number of futures and threads: thrd_get returns only after the worker ended and returns its function's value; thrd_is_done true means the function is over and its result stored; no schedule blocks thrd_get once its worker has run. Refuted: a NULL result makes thrd_get dereference NULL, and thrd_is_done true does not make thrd_get non-blocking (it joins the thread)."
  },
  {
   "property": "C39",
   "status": "partial",
   "theorems": [
    "Verif.Props.C39_Full",
    "Verif.Props.C39_full_false",
    "Verif.Props.C39_lost",
    "Verif.Props.C39_misattributed",
    "Verif.Props.C39_own_again",
    "Verif.Props.C39_sync_crashes",
    "Verif.Props.C39_get_partial"
   ],
   "note": "Proved for every schedule in which each thread has one future at a time: thrd_get throws exactly the exception of its function. Refuted in general: exceptions travel through one field of the creator's scope and are lost, misattributed or repeated; thrd_sync crashes."
  },
  {
   "property": "C40",
   "status": "partial",
   "theorems": [
    "Verif.Props.C40_Full",
    "Verif.Props.C40_full_false",
    "Verif.Props.C40_null_crashes",
    "Verif.Props.C40_results_partial",
    "Verif.Props.C40_entries",
    "Verif.Props.C40_then_partial",
    "Verif.Props.C40_room",
    "Verif.Props.C40_completes",
    "Verif.Props.C40_crash_partial"
   ],
   "note": "Proved for any number of threads, CPU count and schedule: once thrd_sync has returned each handle holds its own function's value, thrd_then folds in spawn order, the arrays always have room, and thrd_sync ends. Refuted for functions that return NULL (thrd_sync dereferences NULL)."
  },
  {
   "property": "C41",
   "status": "partial",
   "theorems": [
    "Verif.Props.C41_Full",
    "Verif.Props.C41_full_false",
    "Verif.Props.C41_get_reads_freed",
    "Verif.Props.C41_sync_reads_freed",
    "Verif.Props.C41_parent_throws",
    "Verif.Props.C41_released_once",
    "Verif.Props.C41_partial"
   ],
   "note": "Refuted: every thrd_get that ends, and every thrd_sync over at least one thread, reads the future after freeing it. Proved: nothing is touched after release before the first release; a scope is released once."
  },
  {
   "property": "C42",
   "status": "proved",
   "theorems": [
    "Verif.Props.C42_mutual_exclusion",
    "Verif.Props.C42_kept",
    "Verif.Props.C42_available",
    "Verif.Props.C42_released"
   ],
   "note": "Spin lock under every interleaving of any number of threads; v is the value the test-and-set stores."
  },
  {
   "property": "C43",
   "status": "partial",
   "theorems": [
    "Verif.Props.C43_full_false",
    "Verif.Props.C43_values_partial",
    "Verif.Props.C43_pointer_wild",
    "Verif.Props.C43_long_string_wild",
    "Verif.Props.C43_out_of_range",
    "Verif.Props.C43_pointer_copies"
   ],
   "note": "The full statement is false: any format with p takes one argument too many (missing break), strings over 272 bytes are copied to NULL, items out of range dereference NULL. Proved for formats without p and strings of at most 272 bytes, with the failures characterised exactly."
  },
  {
   "property": "C44",
   "status": "proved",
   "theorems": [
    "Verif.Props.C44_never_twice",
    "Verif.Props.C44_freed_once",
    "Verif.Props.C44_unread_not_freed"
   ],
   "note": "As documented, a pack that is never read must be given to args_free by hand; using a pack after its release, or args_free on a pack that was read, is not covered."
  },
  {
   "property": "C45",
   "status": "proved",
   "theorems": [
    "Verif.Props.C45_values",
    "Verif.Props.C45_instances",
    "Verif.Props.C45_partition",
    "Verif.Props.C45_neither",
    "Verif.Props.C45_is_type"
   ],
   "note": "For signed and unsigned enumerations."
  },
  {
   "property": "C46",
   "status": "partial",
   "theorems": [
    "Verif.Props.C46_fair_partial",
    "Verif.Props.C46_calm_exact",
    "Verif.Props.C46_only_pushed_partial",
    "Verif.Props.C46_empty_take",
    "Verif.Props.C46_empty_steal",
    "Verif.Props.C46_ends",
    "Verif.Props.C46_taken_twice",
    "Verif.Props.C46_fresh_take",
    "Verif.Props.C46_full_false"
   ],
   "note": "The full statement is refuted: take reads top before lowering bottom, so a task can be obtained twice (C46_taken_twice), and take on a deque never pushed to returns an unwritten cell (C46_fresh_take). Proved for all sizes, thieves and histories in which the owner, when it lowers bottom believing the newest task is not the only one, has not lost that task to a thief and no thief is on its way to it, and take follows a push; every first departure from these histories can be continued to one where the claim fails (C46_calm_exact). Sequential consistency; memory orders in C79."
  },
  {
   "property": "C47",
   "status": "partial",
   "theorems": [
    "Verif.Props.C47_full_false",
    "Verif.Props.C47_recovery_lost",
    "Verif.Props.C47_crash",
    "Verif.Props.C47_left_behind",
    "Verif.Props.C47_serial_partial"
   ],
   "note": "False in full: the handler variables are process-wide. Proved when sections of different threads do not overlap."
  },
  {
   "property": "C48",
   "status": "proved",
   "theorems": [
    "Verif.Props.C48_mmap_rights",
    "Verif.Props.C48_mmap32_rights",
    "Verif.Props.C48_mmap_served",
    "Verif.Props.C48_mprotect_rights",
    "Verif.Props.C48_mprotect_refused"
   ],
   "note": "What Windows does with the requested protection is specified in Verif.Spec.Mman. mprotect refuses PROT_NONE and mmap refuses PROT_EXEC alone."
  },
  {
   "property": "C49",
   "status": "proved",
   "theorems": [
    "Verif.Props.C49_sequences",
    "Verif.Props.C49_remove_while_walking",
    "Verif.Props.C49_remove_while_walking_back"
   ],
   "note": "Every legal history of the SLIST, LIST, SIMPLEQ and TAILQ macros, from memory in any state, on any number of heads and elements, agrees with the sequences on everything readable; removing while walking (forwards and backwards), with the freed element's links overwritten. XSIMPLEQ: C66."
  },
  {
   "property": "C50",
   "status": "proved",
   "theorems": [
    "Verif.Props.C50_calls",
    "Verif.Props.C50_sorted",
    "Verif.Props.C50_height",
    "Verif.Props.C50_balance",
    "Verif.Props.C50_traversal",
    "Verif.Props.C50_traversal_removing",
    "Verif.Props.C50_splay_calls",
    "Verif.Props.C50_splay_sorted",
    "Verif.Props.C50_splay_traversal"
   ],
   "note": "Every history, every order, red-black and splay trees. SPLAY_REMOVE returns its argument, not the member it removed; the statement says so. The amortised cost of splaying: C73."
  },
  {
   "property": "C51",
   "status": "proved",
   "theorems": [
    "Verif.Props.C51_memdup",
    "Verif.Props.C51_copy"
   ],
   "note": ""
  },
  {
   "property": "C52",
   "status": "partial",
   "theorems": [
    "Verif.Props.C52_full_false",
    "Verif.Props.C52_loops",
    "Verif.Props.C52_memory",
    "Verif.Props.C52_terminates_partial"
   ],
   "note": "False: a section without memory loops for ever when a deferred function panics. Termination proved when none does."
  },
  {
   "property": "C53",
   "status": "partial",
   "theorems": [
    "Verif.Props.C53_own_signals_partial",
    "Verif.Props.C53_no_reset_partial",
    "Verif.Props.C53_full_false",
    "Verif.Props.C53_reset_undone",
    "Verif.Props.C53_name_lost",
    "Verif.Props.C53_default",
    "Verif.Props.C53_default_undone"
   ],
   "note": "Full statement false: after any reset the next try registers the library's own signals again. Proved for other signals, and for all signals if nothing is reset."
  },
  {
   "property": "C54",
   "status": "partial",
   "theorems": [
    "Verif.Props.C54_full_false",
    "Verif.Props.C54_private_ignored",
    "Verif.Props.C54_readonly_partial",
    "Verif.Props.C54_extends"
   ],
   "note": "The full statement is false: MAP_PRIVATE is ignored, stores reach the file and a mapping past the end extends it. Proved for mappings without PROT_WRITE."
  },
  {
   "property": "C55",
   "status": "proved",
   "theorems": [
    "Verif.Props.C55_range",
    "Verif.Props.C55_range32",
    "Verif.Props.C55_wrap32",
    "Verif.Props.C55_fixed",
    "Verif.Props.C55_fixed32",
    "Verif.Props.C55_refused",
    "Verif.Props.C55_refused32"
   ],
   "note": "A 32-bit range ending at exactly 2^32 asks for the whole file, which is right."
  },
  {
   "property": "C56",
   "status": "partial",
   "theorems": [
    "Verif.Props.C56_serial_partial",
    "Verif.Props.C56_lost",
    "Verif.Props.C56_freed",
    "Verif.Props.C56_full_false",
    "Verif.Props.C56_outside"
   ],
   "note": "Refuted for overlapping calls: the array is not protected, so a registration can be lost and freed memory written. Proved for every history in which calls do not overlap."
  },
  {
   "property": "C57",
   "status": "partial",
   "theorems": [
    "Verif.Props.C57_full_false",
    "Verif.Props.C57_content_released",
    "Verif.Props.C57_zeroed_hides",
    "Verif.Props.C57_two_blocks_hide",
    "Verif.Props.C57_reads_freed",
    "Verif.Props.C57_reads_freed_nested",
    "Verif.Props.C57_enclosing_released",
    "Verif.Props.C57_later_lost",
    "Verif.Props.C57_outer_freed",
    "Verif.Props.C57_root_hides",
    "Verif.Props.C57_released_partial",
    "Verif.Props.C57_ends",
    "Verif.Props.C57_delete",
    "Verif.Props.C57_thread_cleaned"
   ],
   "note": "False in full: malloc_full registers the block's own address as the address of a protected pointer, so a throw calls the release function with the first word stored in the block; zeroed blocks and a second block from the same scope hide pointers protected before; after releasing a scope a throw can read freed memory or release pointers of enclosing blocks. Proved for all histories in which nothing is thrown in a block that used scoped memory. Termination of throwing, release of scopes and cleaning of the thread's scope hold for all histories."
  },
  {
   "property": "C58",
   "status": "partial",
   "theorems": [
    "Verif.Props.C58_full_false",
    "Verif.Props.C58_atomic_partial",
    "Verif.Props.C58_retries",
    "Verif.Props.C58_alone",
    "Verif.Props.C58_tcc_load",
    "Verif.Props.C58_tcc_add",
    "Verif.Props.C58_tcc_load_never",
    "Verif.Props.C58_tcc_exchange",
    "Verif.Props.C58_tcc_loop"
   ],
   "note": "proved for the compare-and-swap that returns the old value (MSVC, GCC, x86); false for tcc elsewhere, whose compare-and-swap returns a flag"
  },
  {
   "property": "C59",
   "status": "partial",
   "theorems": [
    "Verif.Props.C59_full_false",
    "Verif.Props.C59_same_width_partial",
    "Verif.Props.C59_own",
    "Verif.Props.C59_store_clears",
    "Verif.Props.C59_gentle",
    "Verif.Props.C59_borrow",
    "Verif.Props.C59_mask",
    "Verif.Props.C59_load_mixes",
    "Verif.Props.C59_exchange_fails",
    "Verif.Props.C59_wide_lost",
    "Verif.Props.C59_exchange",
    "Verif.Props.C59_types"
   ],
   "note": "holds for types as wide as the operations; narrower objects are right themselves but their neighbours are overwritten"
  },
  {
   "property": "C60",
   "status": "partial",
   "theorems": [
    "Verif.Props.C60_full_false",
    "Verif.Props.C60_one_and_one",
    "Verif.Props.C60_three_less_one",
    "Verif.Props.C60_tiny_partial",
    "Verif.Props.C60_zero",
    "Verif.Props.C60_minus_zero",
    "Verif.Props.C60_moves",
    "Verif.Props.C60_zeros_differ",
    "Verif.Props.C60_formats"
   ],
   "note": "the bit patterns are added as integers; right only near 0"
  },
  {
   "property": "C61",
   "status": "partial",
   "theorems": [
    "Verif.Props.C61_full_false",
    "Verif.Props.C61_native",
    "Verif.Props.C61_emulated_partial",
    "Verif.Props.C61_not_empty",
    "Verif.Props.C61_junk",
    "Verif.Props.C61_wrong_object",
    "Verif.Props.C61_null"
   ],
   "note": "native build proved; emulated build: proved for careful uninterrupted histories, false otherwise"
  },
  {
   "property": "C62",
   "status": "partial",
   "theorems": [
    "Verif.Props.C62_full_false",
    "Verif.Props.C62_right_partial",
    "Verif.Props.C62_shipped",
    "Verif.Props.C62_ends",
    "Verif.Props.C62_bounded",
    "Verif.Props.C62_too_many",
    "Verif.Props.C62_twice",
    "Verif.Props.C62_no_tasks"
   ],
   "note": "Proved for 1 to 2^32 tasks delivered once each, every number of workers, every schedule. False beyond: the old count is truncated to int, and the deque of C46 can deliver a task twice. With no task the scheduler never ends."
  },
  {
   "property": "C63",
   "status": "partial",
   "theorems": [
    "Verif.Props.C63_full_false",
    "Verif.Props.C63_exit_partial",
    "Verif.Props.C63_throw_partial",
    "Verif.Props.C63_flags",
    "Verif.Props.C63_due",
    "Verif.Props.C63_plain",
    "Verif.Props.C63_never",
    "Verif.Props.C63_null_again",
    "Verif.Props.C63_exits",
    "Verif.Props.C63_stale",
    "Verif.Props.C63_dropped",
    "Verif.Props.C63_unique"
   ],
   "note": "Proved for deferred functions that return and callbacks that do anything, every history. False otherwise: a throwing deferral makes the program never end (every position, every cause), an exiting one is run twice and drops older ones, a scope first used inside a try block loses its deferrals on a signal, a SIGINT handled earlier counts as the cause."
  },
  {
   "property": "C64",
   "status": "partial",
   "theorems": [
    "Verif.Props.C64_full_false",
    "Verif.Props.C64_deferrals_partial",
    "Verif.Props.C64_used",
    "Verif.Props.C64_unused",
    "Verif.Props.C64_unused_spoils",
    "Verif.Props.C64_delete",
    "Verif.Props.C64_no_arena",
    "Verif.Props.C64_huge"
   ],
   "note": "Proved for every proper history: blocks are apart and allocated, deferrals run newest first with their memory there. free_arena itself is undefined as soon as the scope handed out memory (proved), so the full statement is refuted."
  },
  {
   "property": "C65",
   "status": "partial",
   "theorems": [
    "Verif.Props.C65_full_false",
    "Verif.Props.C65_mild_partial",
    "Verif.Props.C65_uncaught",
    "Verif.Props.C65_eq",
    "Verif.Props.C65_setup",
    "Verif.Props.C65_match",
    "Verif.Props.C65_lost",
    "Verif.Props.C65_handler_throw",
    "Verif.Props.C65_rethrow_any",
    "Verif.Props.C65_rethrow_any_works",
    "Verif.Props.C65_fault",
    "Verif.Props.C65_signal_name",
    "Verif.Props.C65_signal_lost"
   ],
   "note": "refuted in general; proved for programs whose exceptions all meet, innermost, a block for exactly them and leave handlers only by rethrow from catch(X); missing: the rest, for which C65_match, C65_lost, C65_handler_throw, C65_rethrow_any, C65_fault and C65_signal_* say what happens instead"
  },
  {
   "property": "C66",
   "status": "partial",
   "theorems": [
    "Verif.Props.C66_full_false",
    "Verif.Props.C66_sequences_partial",
    "Verif.Props.C66_lp64",
    "Verif.Props.C66_high"
   ],
   "note": "proved for every layout with a 64-bit unsigned long, and below 4 GB with a 32-bit one; missing: 32-bit unsigned long (Windows) with objects at 4 GB and above, where it is false"
  },
  {
   "property": "C67",
   "status": "partial",
   "theorems": [
    "Verif.Props.C67_full_false",
    "Verif.Props.C67_no_scope",
    "Verif.Props.C67_arms_partial",
    "Verif.Props.C67_exact",
    "Verif.Props.C67_names",
    "Verif.Props.C67_stale",
    "Verif.Props.C67_junk",
    "Verif.Props.C67_panic",
    "Verif.Props.C67_else_throws",
    "Verif.Props.C67_nothing_thrown"
   ],
   "note": "Proved by refinement for every nesting of blocks after raii_init, with clear uninitialised flags, throw(E) only, no memory held, no throw from the last else, names is_str_eq tells apart. False otherwise, each case characterised."
  },
  {
   "property": "C68",
   "status": "partial",
   "theorems": [
    "Verif.Props.C68_full_false",
    "Verif.Props.C68_root",
    "Verif.Props.C68_handler_skipped",
    "Verif.Props.C68_runs_partial",
    "Verif.Props.C68_no_scope"
   ],
   "note": "Refuted for every throw outside blocks and for the block that first used the scope: marking the error has no effect or skips the handlers. Proved: without held memory the functions run once, newest first, at the end."
  },
  {
   "property": "C69",
   "status": "partial",
   "theorems": [
    "Verif.Props.C69_full_false",
    "Verif.Props.C69_other_future",
    "Verif.Props.C69_other_scope",
    "Verif.Props.C69_empty_scope",
    "Verif.Props.C69_fault_iff",
    "Verif.Props.C69_released_iff",
    "Verif.Props.C69_deferrals",
    "Verif.Props.C69_once",
    "Verif.Props.C69_joins_last_partial",
    "Verif.Props.C69_futures_only_partial",
    "Verif.Props.C69_waits",
    "Verif.Props.C69_get_waits"
   ],
   "note": "As stated it is false: thrd_sync runs raii_deferred_clean on the calling thread's own scope. Proved for all histories that keep the rules: exactly when freed memory is met, exactly when blocks leak, exactly which deferrals run; the full statement holds for programs that leave their scope alone after the first join."
  },
  {
   "property": "C70",
   "status": "partial",
   "theorems": [
    "Verif.Props.C70_full_false",
    "Verif.Props.C70_done_iff_partial",
    "Verif.Props.C70_done_sound",
    "Verif.Props.C70_stays_partial",
    "Verif.Props.C70_becomes_partial",
    "Verif.Props.C70_finish_iff_partial",
    "Verif.Props.C70_after_get",
    "Verif.Props.C70_after_sync"
   ],
   "note": "Exact until the result is asked for; after thrd_get or thrd_sync the status is \"not done\" again and is read from the freed future, for every history. thrd_wait is the loop on thrd_is_done and is not modelled separately."
  },
  {
   "property": "C71",
   "status": "partial",
   "theorems": [
    "Verif.Props.C71_full_false",
    "Verif.Props.C71_mark_accepted",
    "Verif.Props.C71_mark_missing",
    "Verif.Props.C71_W_crashes",
    "Verif.Props.C71_letter_255",
    "Verif.Props.C71_unique",
    "Verif.Props.C71_reads_partial",
    "Verif.Props.C71_marked_partial",
    "Verif.Props.C71_words",
    "Verif.Props.C71_argv",
    "Verif.Props.C71_restart",
    "Verif.Props.C71_char",
    "Verif.Props.C71_no_words"
   ],
   "note": "The reading is proved for every command line and every option string without a mark (+ or - in front), without W; and without the letter 255 (C71_reads_partial), and with a mark if no option word has the mark among its letters and the letters do not begin with a colon (C71_marked_partial); outside of that it is false, with witnesses. That calls only permute argv (C71_argv) and that optind = 0 begins anew (C71_restart) hold without restriction. Long options are not modelled: getopt_long is declared but not defined."
  },
  {
   "property": "C72",
   "status": "partial",
   "theorems": [
    "Verif.Props.C72_full_false",
    "Verif.Props.C72_result_released",
    "Verif.Props.C72_others_pointer",
    "Verif.Props.C72_reads_freed",
    "Verif.Props.C72_apart",
    "Verif.Props.C72_released_partial"
   ],
   "note": "False in full: a throw follows the list of protected pointers through scopes shared with other threads (three witnesses). Proved: threads that share nothing behave each as if alone, in every interleaving; with shared scopes, every history in which no thread throws in a block in which it allocated scoped memory or released a scope. Missing: operations that overlap in time."
  },
  {
   "property": "C73",
   "status": "partial",
   "theorems": [
    "Verif.Props.C73_balance_partial",
    "Verif.Props.C73_traversal",
    "Verif.Props.C73_histories",
    "Verif.Props.C73_next_walks",
    "Verif.Props.C73_full_false"
   ],
   "note": "The full claim is false: SPLAY_NEXT on its own walks down half of a tree again and again (C73_full_false, C73_next_walks). Proved with constant 36 for all histories in which SPLAY_NEXT is only called by SPLAY_FOREACH, and for complete traversals of any tree. Rounds of the longest loop of a call are counted; all rounds are at most twice as many."
  },
  {
   "property": "C74",
   "status": "partial",
   "theorems": [
    "Verif.Props.C74_lock_exclusive",
    "Verif.Props.C74_race_free_partial",
    "Verif.Props.C74_get_value",
    "Verif.Props.C74_wait_then_get",
    "Verif.Props.C74_not_stuck",
    "Verif.Props.C74_lock_available",
    "Verif.Props.C74_get_available",
    "Verif.Props.C74_full_false"
   ],
   "note": "proved on a machine with views (release/acquire C11 without load buffering) for data read after thrd_get; false for data read after thrd_wait only, whose load is relaxed: a run with a race is given"
  },
  {
   "property": "C75",
   "status": "partial",
   "theorems": [
    "Verif.Props.C75_Full",
    "Verif.Props.C75_calls_partial",
    "Verif.Props.C75_balance",
    "Verif.Props.C75_path_changes",
    "Verif.Props.C75_full_false",
    "Verif.Props.C75_error_silent",
    "Verif.Props.C75_error_wrong",
    "Verif.Props.C75_wide_names",
    "Verif.Props.C75_misuse_seen"
   ],
   "note": "Proved for every history in which the absolute name does not change during opendir and the search meets no error; nothing is leaked or closed twice in any history at all. The full statement is refuted twice."
  },
  {
   "property": "C76",
   "status": "partial",
   "theorems": [
    "Verif.Props.C76_status",
    "Verif.Props.C76_parent",
    "Verif.Props.C76_full_false",
    "Verif.Props.C76_handles",
    "Verif.Props.C76_failure",
    "Verif.Props.C76_options",
    "Verif.Props.C76_one_partial",
    "Verif.Props.C76_first_child",
    "Verif.Props.C76_stranger",
    "Verif.Props.C76_aborts",
    "Verif.Props.C76_waitid_refuses",
    "Verif.Props.C76_unknown_code",
    "Verif.Props.C76_words",
    "Verif.Props.C76_same"
   ],
   "note": "The status stored is exact (C76_status), status words are exact for every word (C76_words), and for one listed and readable child the verdict is right (C76_one_partial). The full claim is false: the number returned is that of the parent, WNOHANG leaks two handles, wait follows only the first child listed, strangers can be waited for, waitid refuses WEXITED."
  },
  {
   "property": "C77",
   "status": "proved",
   "theorems": [
    "Verif.Props.C77_big_first",
    "Verif.Props.C77_inverse",
    "Verif.Props.C77_difference",
    "Verif.Props.C77_difference_nanos"
   ],
   "note": "For every number, byte order, pair of normal times and aliasing of the pointers."
  },
  {
   "property": "C78",
   "status": "partial",
   "theorems": [
    "Verif.Props.C78_delivers_partial",
    "Verif.Props.C78_freed_partial",
    "Verif.Props.C78_roundtrip",
    "Verif.Props.C78_first_decode",
    "Verif.Props.C78_full_false",
    "Verif.Props.C78_lost",
    "Verif.Props.C78_padding",
    "Verif.Props.C78_frees_needs_memory"
   ],
   "note": "Every call delivers what was asked for, apart from everything else and unchanged by any later history (C78_delivers_partial), except raii_decode64 as a thread's first call, which dereferences a NULL scope (C78_first_decode). A release frees everything once (C78_freed_partial) unless the deferral array could not grow or the scope was released before (C78_lost)."
  },
  {
   "property": "C79",
   "status": "partial",
   "theorems": [
    "Verif.Props.C79_good_partial",
    "Verif.Props.C79_count_partial",
    "Verif.Props.C79_few",
    "Verif.Props.C79_solo",
    "Verif.Props.C79_not_stuck_partial",
    "Verif.Props.C79_stale",
    "Verif.Props.C79_garbage",
    "Verif.Props.C79_full_false",
    "Verif.Props.C79_lowered"
   ],
   "note": "The full claim is refuted on every machine: a task is obtained twice although no calls overlap (C79_stale), and a thief obtains uninitialised memory although the owner only pushes (C79_garbage). Proved for all machines, sizes, thieves and calm histories (take is right at its fence whether there are two tasks or more, thieves are given the array they know of, take follows a push); unconditionally when the owner only pushes at most as many tasks as the first array has cells, and without thieves."
  },
  {
   "property": "C80",
   "status": "partial",
   "theorems": [
    "Verif.Props.C80_full_false",
    "Verif.Props.C80_operand_lost",
    "Verif.Props.C80_cas64_partial",
    "Verif.Props.C80_cas64_ebx",
    "Verif.Props.C80_stack_operand",
    "Verif.Props.C80_ebx_operand",
    "Verif.Props.C80_retry",
    "Verif.Props.C80_cas",
    "Verif.Props.C80_exchange",
    "Verif.Props.C80_fetch_add",
    "Verif.Props.C80_fence",
    "Verif.Props.C80_ms_cas",
    "Verif.Props.C80_ms_cas64",
    "Verif.Props.C80_ms_exchange",
    "Verif.Props.C80_ms_fetch_add",
    "Verif.Props.C80_ms_fence"
   ],
   "note": "Every operation in assembly language but one is proved for all machine states, operands and widths. The 64-bit compare-and-swap of 32-bit GCC builds is false as stated: it loses the register that holds the lower half of desired unless that is ebx, and misses an object addressed through esp or ebx; proved for the other choices of the compiler."
  },
  {
   "property": "C81",
   "status": "proved",
   "theorems": [
    "Verif.Props.C81_sc",
    "Verif.Props.C81_converse",
    "Verif.Props.C81_atomics_only",
    "Verif.Props.C81_plain_stores",
    "Verif.Props.C81_atomic_stores",
    "Verif.Props.C81_lock_disciplined",
    "Verif.Props.C81_lock_exclusive",
    "Verif.Props.C81_lock_serial",
    "Verif.Props.C81_lock_through",
    "Verif.Props.C81_count"
   ],
   "note": "For all programs on x86-TSO. The lock is that of the builds with inline assembly, whose unlock is a locked exchange; builds whose unlock is a release store are covered by C74."
  },
  {
   "property": "C82",
   "status": "partial",
   "theorems": [
    "Verif.Props.C82_lost_partial",
    "Verif.Props.C82_lost_all",
    "Verif.Props.C82_end_partial",
    "Verif.Props.C82_iff",
    "Verif.Props.C82_told",
    "Verif.Props.C82_undefined",
    "Verif.Props.C82_plenty",
    "Verif.Props.C82_full_false",
    "Verif.Props.C82_guard_false",
    "Verif.Props.C82_released",
    "Verif.Props.C82_each"
   ],
   "note": "False in full: see C82_full_false (a block whose deferral gets no room is never freed, without a word) and C82_guard_false. Proved instead, for all histories and all refusals: the exact number of blocks lost, by a table of what was refused; exactly when the caller is told; exactly when something is undefined; all is freed when memory suffices. Missing: what the throw itself frees (C57)."
  },
  {
   "property": "C83",
   "status": "partial",
   "theorems": [
    "Verif.Props.C83_pages_partial",
    "Verif.Props.C83_munmap",
    "Verif.Props.C83_others",
    "Verif.Props.C83_failed",
    "Verif.Props.C83_full_false",
    "Verif.Props.C83_more_false"
   ],
   "note": "False in full (C83_full_false, C83_more_false): munmap ignores its length. Proved for all histories in which every munmap names one mapping whole, and C83_munmap shows that this condition is exact; mmap and mprotect are right after any history."
  },
  {
   "property": "C84",
   "status": "partial",
   "theorems": [
    "Verif.Props.C84_Full",
    "Verif.Props.C84_full_false",
    "Verif.Props.C84_wild_false",
    "Verif.Props.C84_lost_false",
    "Verif.Props.C84_skipped_false",
    "Verif.Props.C84_nosave_false",
    "Verif.Props.C84_masks_partial",
    "Verif.Props.C84_raised_partial",
    "Verif.Props.C84_defined_partial",
    "Verif.Props.C84_flight_partial",
    "Verif.Props.C84_quiet_partial"
   ],
   "note": "Refuted: a signal between ex_update and ex_setjmp jumps to nowhere; one during ex_throw replaces the exception; one before state is assigned skips the handler; without sigsetjmp a caught signal stays blocked. Proved for all schedules: mask, delivery, what is caught, what ends the program; everything for signals that arrive one at a time in the program's own code."
  },
  {
   "property": "C85",
   "status": "partial",
   "theorems": [
    "Verif.Props.C85_Full",
    "Verif.Props.C85_full_false",
    "Verif.Props.C85_catch_false",
    "Verif.Props.C85_first_throw_ends",
    "Verif.Props.C85_no_throw_partial",
    "Verif.Props.C85_same_object",
    "Verif.Props.C85_objects_false",
    "Verif.Props.C85_foreign_false",
    "Verif.Props.C85_objects_partial"
   ],
   "note": "Refuted: with emulated thread-local storage every throw ends the process, also in a try block, and a single-threaded program's scope and exception context are the same object. Proved: programs that throw nothing; all histories if key 0 is another's and holds NULL."
  },
  {
   "property": "C86",
   "status": "partial",
   "theorems": [
    "Verif.Props.C86_full_false",
    "Verif.Props.C86_unix_partial",
    "Verif.Props.C86_trailing_partial",
    "Verif.Props.C86_known_partial",
    "Verif.Props.C86_windows_leading",
    "Verif.Props.C86_windows_never_right",
    "Verif.Props.C86_windows_block",
    "Verif.Props.C86_windows_memrchr",
    "Verif.Props.C86_windows_simd_memrchr",
    "Verif.Props.C86_windows_memrchrk"
   ],
   "note": "Refuted on Windows (countl_zero returns the index of the highest set bit). Proved for every other platform; on Windows the exact answers are characterised for every word, block and buffer."
  },
  {
   "property": "C87",
   "status": "partial",
   "theorems": [
    "Verif.Props.C87_full_false",
    "Verif.Props.C87_thread_undefined",
    "Verif.Props.C87_isFinish_undefined",
    "Verif.Props.C87_otherwise_defined",
    "Verif.Props.C87_sync_refuses",
    "Verif.Props.C87_destroy_leaks",
    "Verif.Props.C87_never_returned",
    "Verif.Props.C87_empty_partial"
   ],
   "note": "Refuted for every pool that has threads: the exact conditions of undefined behaviour, and the exact set of blocks thrd_destroy leaves, are proved for every schedule. The pool of no threads works."
  },
  {
   "property": "C88",
   "status": "partial",
   "theorems": [
    "Verif.Props.C88_full_false",
    "Verif.Props.C88_first_half_false",
    "Verif.Props.C88_W_overruns",
    "Verif.Props.C88_W_swallows",
    "Verif.Props.C88_middle_of_word",
    "Verif.Props.C88_unique",
    "Verif.Props.C88_reads_partial",
    "Verif.Props.C88_marked_partial",
    "Verif.Props.C88_pick",
    "Verif.Props.C88_synonyms",
    "Verif.Props.C88_W_like_long",
    "Verif.Props.C88_W_otherwise",
    "Verif.Props.C88_words",
    "Verif.Props.C88_argv",
    "Verif.Props.C88_characters",
    "Verif.Props.C88_value",
    "Verif.Props.C88_no_words",
    "Verif.Props.C88_W_missing"
   ],
   "note": "The full statement is false: an ambiguous -W name moves optind past argv, and with long_only the rest of a word of letters is looked up as a long option. Proved for every option string without W; and the letter 255, every table and every command line; with long_only as far as no word has to be split into several letters; with a mark as far as no word of letters contains it."
  },
  {
   "property": "C89",
   "status": "partial",
   "theorems": [
    "Verif.Props.C89_full_false",
    "Verif.Props.C89_wrong",
    "Verif.Props.C89_silent",
    "Verif.Props.C89_mmap_partial",
    "Verif.Props.C89_other_partial",
    "Verif.Props.C89_told",
    "Verif.Props.C89_handles",
    "Verif.Props.C89_page"
   ],
   "note": "The full statement is false: errno is set to the Windows error number, wrong for every cause with a POSIX name (C89_wrong), and a view refused leaves what CloseHandle left, perhaps 0 (C89_silent). Proved for all arguments, answers and histories: exactly when each call fails and what errno is; when a failure can be told; no handle stays open if CloseHandle works; getpagesize."
  },
  {
   "property": "C90",
   "status": "partial",
   "theorems": [
    "Verif.Props.C90_full_false",
    "Verif.Props.C90_durable_false",
    "Verif.Props.C90_locks_false",
    "Verif.Props.C90_lost",
    "Verif.Props.C90_unlock_fails",
    "Verif.Props.C90_crash",
    "Verif.Props.C90_durable_partial",
    "Verif.Props.C90_msync",
    "Verif.Props.C90_locks_partial"
   ],
   "note": "The full statement is false: FlushViewOfFile does not wait, so a crash just after msync loses every page not on the disk before; munlock fails for pages not locked. Proved for all histories and crash points: a page on the disk is one it once held and never gets older; once the writes under way have arrived msync's promise holds; locks are exact if a failing VirtualUnlock unlocks nothing."
  },
  {
   "property": "C91",
   "status": "partial",
   "theorems": [
    "Verif.Props.C91_full_false",
    "Verif.Props.C91_native",
    "Verif.Props.C91_native_partial",
    "Verif.Props.C91_stale",
    "Verif.Props.C91_emulated_partial",
    "Verif.Props.C91_copy",
    "Verif.Props.C91_others",
    "Verif.Props.C91_lost",
    "Verif.Props.C91_freed",
    "Verif.Props.C91_emulated_false",
    "Verif.Props.C91_plain_partial",
    "Verif.Props.C91_plain_never",
    "Verif.Props.C91_plain_wrong"
   ],
   "note": "With the compiler's storage what var, var_update, var_del and is_var_empty do is characterised exactly for all histories (C91_native); it is the statement but for the contents after var_del (C91_native_partial, C91_stale). The emulation copies in var_update (C91_copy), var_del takes the variable from every thread (C91_others) and leaks their objects (C91_lost); without var_del it is C61 of the copies (C91_emulated_partial). Plain variables never return their initial value (C91_plain_never)."
  },
  {
   "property": "C92",
   "status": "partial",
   "theorems": [
    "Verif.Props.C92_full_false",
    "Verif.Props.C92_cas_partial",
    "Verif.Props.C92_strong",
    "Verif.Props.C92_tcc",
    "Verif.Props.C92_tcc_swap",
    "Verif.Props.C92_threads",
    "Verif.Props.C92_alone",
    "Verif.Props.C92_tcc_forever"
   ],
   "note": "Proved for all memories with the Interlocked functions and for C11's operation, and for any number of threads in loops, all schedules (C92_threads, C92_alone). tcc for 32-bit Windows passes the address of the parameter: the object is compared with an address (C92_tcc), loops never end (C92_tcc_forever)."
  },
  {
   "property": "C93",
   "status": "partial",
   "theorems": [
    "Verif.Props.C93_full_false",
    "Verif.Props.C93_three",
    "Verif.Props.C93_kind_partial",
    "Verif.Props.C93_kinds",
    "Verif.Props.C93_unknown"
   ],
   "note": "All of it for modes with kind bits (C93_kind_partial); a mode without is block device, socket and link at once (C93_three)."
  },
  {
   "property": "C94",
   "status": "partial",
   "theorems": [
    "Verif.Props.C94_full_false",
    "Verif.Props.C94_align_false",
    "Verif.Props.C94_align_partial",
    "Verif.Props.C94_int",
    "Verif.Props.C94_upper_half",
    "Verif.Props.C94_wraps",
    "Verif.Props.C94_size_partial",
    "Verif.Props.C94_gb",
    "Verif.Props.C94_sum"
   ],
   "note": "align_up with operands of 64 bits or an int, if the result fits (C94_align_partial, C94_int); with an unsigned int the upper half is lost (C94_upper_half). The sizes of one number exactly (C94_size_partial); 2 GiB or more overflow (C94_gb), of a sum only the last term is multiplied (C94_sum)."
  },
  {
   "property": "C95",
   "status": "partial",
   "theorems": [
    "Verif.Props.C95_cxx",
    "Verif.Props.C95_c",
    "Verif.Props.C95_seh_partial",
    "Verif.Props.C95_seh_straight",
    "Verif.Props.C95_once",
    "Verif.Props.C95_exit",
    "Verif.Props.C95_seh_cond",
    "Verif.Props.C95_full_false",
    "Verif.Props.C95_leave",
    "Verif.Props.C95_c_leave"
   ],
   "note": "Proved in C and C++ for all programs POSIX defines; with SEH for all programs without an exit, and for all if the argument of pthread_cleanup_pop needs no parentheses. The full statement is refuted for an argument a ? b : c with SEH."
  },
  {
   "property": "C96",
   "status": "partial",
   "theorems": [
    "Verif.Props.C96_finality_partial",
    "Verif.Props.C96_any",
    "Verif.Props.C96_swallowed",
    "Verif.Props.C96_full_false"
   ],
   "note": "The last part runs once, after the body, for every body. The full statement is refuted: for POSIX the exception of the body is swallowed, whatever it is."
  },
  {
   "property": "C97",
   "status": "partial",
   "theorems": [
    "Verif.Props.C97_posix",
    "Verif.Props.C97_windows_partial",
    "Verif.Props.C97_windows_only",
    "Verif.Props.C97_windows_not",
    "Verif.Props.C97_out_of_scope",
    "Verif.Props.C97_test",
    "Verif.Props.C97_full_false"
   ],
   "note": "Proved for POSIX for all blocks; for Windows exactly the blocks with one handler, then finally and end_try, or only end_trying, are statements. The full statement is refuted for Windows."
  },
  {
   "property": "C98",
   "status": "partial",
   "theorems": [
    "Verif.Props.C98_value_partial",
    "Verif.Props.C98_all_ran",
    "Verif.Props.C98_freed",
    "Verif.Props.C98_freed_example",
    "Verif.Props.C98_changed",
    "Verif.Props.C98_if",
    "Verif.Props.C98_full_false",
    "Verif.Props.C98_value_false"
   ],
   "note": "Proved if no returned expression reads what a deferred function changes or frees and each _return after an if is in braces. The full statement is refuted: the expression is evaluated after the deferred functions ran; if (c) _return(v) returns in any case."
  },
  {
   "property": "C99",
   "status": "partial",
   "theorems": [
    "Verif.Props.C99_report_partial",
    "Verif.Props.C99_garbage",
    "Verif.Props.C99_scoped",
    "Verif.Props.C99_signal",
    "Verif.Props.C99_second",
    "Verif.Props.C99_heading",
    "Verif.Props.C99_stale",
    "Verif.Props.C99_full_false",
    "Verif.Props.C99_full_false_heading",
    "Verif.Props.C99_heard_partial"
   ],
   "note": "Proved for every history if the message lies outside the memory the library releases, the exception is no signal (or the build is for debugging) and no protected pointer is NULL when newest or equal to the one before. Refuted otherwise: a message in scoped memory is always freed before it is printed or can be read by a handler, signals print NULL, the heading is wrong after a protected NULL pointer."
  }
 ]
}