{
 "claims": [
  {
   "property": "C01",
   "status": "proved",
   "theorems": [
    "Tm.U128.C01_add",
    "Tm.U128.C01_sub"
   ],
   "note": "128-bit add/sub wrap modulo 2^128"
  },
  {
   "property": "C02",
   "status": "proved",
   "theorems": [
    "Tm.U128.C02_mul"
   ],
   "note": "128-bit multiplication is exact modulo 2^128"
  },
  {
   "property": "C03",
   "status": "proved",
   "theorems": [
    "Tm.U128.C03_divmod",
    "Tm.U128.C03_divmod_u64",
    "Tm.U128.C03_zero_divisor"
   ],
   "note": "128-bit division and remainder are Euclidean"
  },
  {
   "property": "C04",
   "status": "proved",
   "theorems": [
    "Tm.U128.C04_shifts",
    "Tm.U128.C04_shifts128",
    "Tm.U128.C04_bitwise",
    "Tm.U128.C04_single_bit",
    "Tm.U128.C04_to_bytes"
   ],
   "note": "128-bit shifts and bit operations"
  },
  {
   "property": "C05",
   "status": "proved",
   "theorems": [
    "Tm.U128.C05_compare",
    "Tm.U128.C05_injective"
   ],
   "note": "128-bit comparisons are the order of the represented numbers"
  },
  {
   "property": "C06",
   "status": "proved",
   "theorems": [
    "Tm.U128.C06_fls",
    "Tm.U128.C06_ffs",
    "Tm.U128.C06_zero",
    "Tm.U128.C06_safe_forms",
    "Tm.U128.C06_popcount"
   ],
   "note": "Bit scans and population count"
  },
  {
   "property": "C07",
   "status": "proved",
   "theorems": [
    "Tm.U128.C07_print",
    "Tm.U128.C07_digits_count",
    "Tm.U128.C07_scan",
    "Tm.U128.C07_scan_null",
    "Tm.U128.C07_print_scan",
    "Tm.U128.C07_print_width",
    "Tm.U128.C07_print_too_wide"
   ],
   "note": "Printing and re-reading a 128-bit value gives the value back"
  },
  {
   "property": "C08",
   "status": "partial",
   "theorems": [
    "Tm.U128.C08_rounding_unique",
    "Tm.U128.C08_toward_zero",
    "Tm.U128.C08_double_partial",
    "Tm.U128.C08_double_carry",
    "Tm.U128.C08_float_partial",
    "Tm.U128.C08_float_carry",
    "Tm.U128.C08_float_upward_exact",
    "Tm.U128.C08_exact"
   ],
   "note": "128-bit to floating point conversion rounds as documented. C08_double_partial: C08, `double`, nearest and upward. Missing: the values whose correct rounding is the next power of two (`C08_double_carry` says what happens to them). C08_float_partial: C08, `float`, nearest and upward. Missing: the values whose correct rounding is the next power of two (`C08_float_carry`), and for upward the values with exactly 24 significant digits (`C08_float_upward_exact`)."
  },
  {
   "property": "C09",
   "status": "partial",
   "theorems": [
    "Tm.U128.C09_from_double",
    "Tm.U128.C09_from_float_partial",
    "Tm.U128.C09_from_float_negative",
    "Tm.U128.C09_from_float_negative_zero",
    "Tm.U128.C09_checked_partial",
    "Tm.U128.C09_checked_accepts_out_of_range"
   ],
   "note": "Floating point to 128-bit conversion truncates. C09_from_float_partial: C09, `float`, sign bit clear: every finite value is truncated toward zero. Missing: values with the sign bit set whose truncation is 0 (see `C09_from_float_negative`, `C09_from_float_negative_zero`). C09_checked_partial: C09, the checked variants: infinities and NaNs are rejected, and values in range are converted. Missing: rejection of finite values out of range (`C09_checked_accepts_out_of_range`) and the `float` values with the sign bit set."
  },
  {
   "property": "C10",
   "status": "partial",
   "theorems": [
    "Tm.Conv.C10_numeral_exists_unique",
    "Tm.Conv.C10_scan_unsigned",
    "Tm.Conv.C10_scan_null",
    "Tm.Conv.C10_scan_signed_wrapping",
    "Tm.Conv.C10_scan_signed_partial",
    "Tm.Conv.C10_signed_exists",
    "Tm.Conv.C10_least_value_overflows"
   ],
   "note": "Integer scanning is total and exact. C10_scan_signed_partial: C10, signed, under the language rules. Missing: the text of the least value of the type (see `C10_least_value_overflows`)."
  },
  {
   "property": "C11",
   "status": "proved",
   "theorems": [
    "Tm.Conv.C11_forms_agree"
   ],
   "note": "The nul-terminated and the length-delimited scanners agree"
  },
  {
   "property": "C12",
   "status": "proved",
   "theorems": [
    "Tm.Conv.C12_canonical_exists_unique",
    "Tm.Conv.C12_print_unsigned",
    "Tm.Conv.C12_print_unsigned_dec_hex",
    "Tm.Conv.C12_print_signed",
    "Tm.Conv.C12_print_signed_dec_hex"
   ],
   "note": "Integer printing writes the canonical numeral and nothing else"
  },
  {
   "property": "C13",
   "status": "proved",
   "theorems": [
    "Tm.Conv.C13_print_bounds"
   ],
   "note": "Integer printing never writes out of bounds and reports overflow"
  },
  {
   "property": "C14",
   "status": "partial",
   "theorems": [
    "Tm.Conv.C14_print_scan_unsigned",
    "Tm.Conv.C14_print_scan_signed_wrapping",
    "Tm.Conv.C14_print_scan_signed_partial"
   ],
   "note": "print then scan is the identity on integers. C14_print_scan_signed_partial: C14, signed, under the language rules. Missing: the least value of the type, whose text cannot be scanned without signed overflow (`C10_least_value_overflows`)."
  },
  {
   "property": "C15",
   "status": "partial",
   "theorems": [
    "Tm.Conv.C15_wrong_width_asserts",
    "Tm.Conv.C15_checked_decimal",
    "Tm.Conv.C15_checked_partial",
    "Tm.Conv.C15_checked_hex_zero_width",
    "Tm.Conv.C15_checked_too_wide"
   ],
   "note": "Printing with a caller-supplied width is safe for every width. C15_checked_partial: C15, hexadecimal and any base with `TMC_CHECKED_WIDTH` and assertions compiled out. Missing: width 0 for the value 0 in the hexadecimal printer (`C15_checked_hex_zero_width`), and that a width larger than the digit count is rejected (`C15_checked_too_wide`)."
  },
  {
   "property": "C16",
   "status": "proved",
   "theorems": [
    "Tm.Conv.C16_hex_bytes",
    "Tm.Conv.C16_hex_bytes_injective"
   ],
   "note": "Hex dump of bytes is faithful"
  },
  {
   "property": "C17",
   "status": "partial",
   "theorems": [
    "Tm.Conv.C17_scan_bool_partial",
    "Tm.Conv.C17_scan_bool_wrong_last_letter",
    "Tm.Conv.C17_scan_bool_n_partial",
    "Tm.Conv.C17_scan_bool_n_reads_past_end",
    "Tm.Conv.C17_scan_bool_n_accepts_garbage",
    "Tm.Conv.C17_print_bool"
   ],
   "note": "Boolean scanning accepts exactly the documented literals. C17_scan_bool_partial: C17 for `scan_bool`: the documented literals are accepted; a string with another first letter, or differing from both words in one of their first three resp. four letters, or ending there, is rejected. Missing: rejecting a string that differs from the word exactly in its last letter (`C17_scan_bool_wrong_last_letter` shows it is accepted). C17_scan_bool_n_partial: C17 for `scan_bool_n`: '1' and '0' for every length; the words when the length is exactly that of the word and one more char can be read behind them. Missing: every other text (see the two theorems below)."
  },
  {
   "property": "C18",
   "status": "partial",
   "theorems": [
    "Tm.Hash.C18_finite_map_partial",
    "Tm.Hash.C18_not_tombstone"
   ],
   "note": "The hash map behaves like a finite map. C18_finite_map_partial: **C18**, partial: whatever a client does with a new map, however the hash function behaves and whichever allocations fail, no operation faults, and all results are those of a finite map. Missing: looking up and removing the tombstone key (`C18_not_tombstone`), and an insertion that reports failure may lose entries (`C22_not_kept`). C18_not_tombstone: **C18** fails when the tombstone key is used: removing it reports success, and hides an entry that was never removed."
  },
  {
   "property": "C19",
   "status": "partial",
   "theorems": [
    "Tm.Hash.C19_count_partial",
    "Tm.Hash.C19_not_tombstone"
   ],
   "note": "The hash map's count is the number of stored keys. C19_count_partial: **C19**, partial: the reported count is the number of keys that are present. Missing: histories in which an insertion failed for lack of memory (`C22_not_kept`: the count can then be too large) or the tombstone is removed (`C19_not_tombstone`). C19_not_tombstone: **C19** fails when the tombstone is removed: one key is present and the count is 0."
  },
  {
   "property": "C20",
   "status": "partial",
   "theorems": [
    "Tm.Hash.C20_grow_partial",
    "Tm.Hash.C20_not_kept"
   ],
   "note": "Rehashing preserves contents. C20_grow_partial: **C20**, partial: after any history, when growing the table succeeds, it shows exactly the same entries, each at one index only, the count is the number of entries, and the capacity is a power of two, at least twice as large. Missing: growing that fails in the middle loses entries (`C20_not_kept`). C20_not_kept: **C20** fails: growing the same table loses entries."
  },
  {
   "property": "C21",
   "status": "proved",
   "theorems": [
    "Tm.Hash.C21_returns",
    "Tm.Hash.C21_crowded"
   ],
   "note": "Insertion terminates or reports failure"
  },
  {
   "property": "C22",
   "status": "partial",
   "theorems": [
    "Tm.Hash.C22_kept_partial",
    "Tm.Hash.C22_not_kept"
   ],
   "note": "Failed allocation leaves the map unchanged. C22_kept_partial: **C22**, partial: after any history, if the memory for growing the table is refused, `insert` either stores the entry without needing memory or reports failure and leaves the map exactly as it was. If a later allocation of the same insertion is refused, every entry left was there before; missing: that all of them are left (`C22_not_kept`). C22_not_kept: **C22** fails: 23 entries are stored; another insertion doubles the table, in which one of them finds no place, and the memory for doubling it again is refused. The insertion reports failure and 22 of the entries are gone, although the count is still 23."
  },
  {
   "property": "C23",
   "status": "proved",
   "theorems": [
    "Tm.Hash.C23_fnv1a",
    "Tm.Hash.C23_concat",
    "Tm.Hash.C23_string",
    "Tm.Hash.C23_string_hash"
   ],
   "note": "The byte hash is FNV-1a"
  },
  {
   "property": "C24",
   "status": "proved",
   "theorems": [
    "Tm.Alloc.C24_padding",
    "Tm.Alloc.C24_other_alignments",
    "Tm.Alloc.C24_power_of_two"
   ],
   "note": "Alignment padding is minimal"
  },
  {
   "property": "C25",
   "status": "partial",
   "theorems": [
    "Tm.Alloc.C25_allocate",
    "Tm.Alloc.C25_blocks_partial",
    "Tm.Alloc.C25_not_inside",
    "Tm.Alloc.C25_not_disjoint"
   ],
   "note": "Stack allocator blocks are aligned, in bounds and pairwise disjoint. C25_blocks_partial: C25 (partial): after any history of allocations, reallocations and frees with sizes below 2^62, in which either only the newest block is freed or reallocated, or all blocks have the same alignment, every live block lies in the buffer, is aligned as requested and overlaps no other live block. Missing: histories that reallocate an older block while mixing alignments, and huge sizes; for both the claim is false, see `C25_not_disjoint` and `C25_not_inside`. C25_not_inside: C25 does not hold for huge sizes: `sz + offset + size` overflows and a block far larger than the buffer is handed out. C25_not_disjoint: C25 does not hold when alignments are mixed and an older block is reallocated: after a block with a larger alignment was freed, the padding in front of it makes an older block look like the most recent one, and growing that one in place runs over the block in between."
  },
  {
   "property": "C26",
   "status": "partial",
   "theorems": [
    "Tm.Alloc.C26_reverse_partial",
    "Tm.Alloc.C26_reverse_aligned",
    "Tm.Alloc.C26_interleaved_uniform",
    "Tm.Alloc.C26_not_restored",
    "Tm.Alloc.C26_not_interleaved",
    "Tm.Alloc.C26_not_after_realloc"
   ],
   "note": "Stack allocator frees restore capacity in LIFO order. C26_reverse_partial: C26: blocks requested from a fresh allocator with any sizes and alignments can be freed in reverse order without a fault (partial: the fill level then is the padding in front of the first block, which is the initial fill level only if the buffer is aligned for the first block; see `C26_reverse_aligned` and `C26_not_restored`). C26_not_restored: C26 fails when the buffer is not aligned for the first block: the padding in front of it is not given back. C26_not_interleaved: C26 fails for stack-ordered histories that mix alignments: after a block with a larger alignment was freed and a new block taken in its place, the padding is forgotten and freeing the block below fails an assertion. C26_not_after_realloc: C26 fails after a reallocation even with a single alignment: the block grown in place behind padding is no longer recognised as the most recent one."
  },
  {
   "property": "C27",
   "status": "partial",
   "theorems": [
    "Tm.Alloc.C27_guard_restores",
    "Tm.Alloc.C27_outer_blocks_partial",
    "Tm.Alloc.C27_not_outer_blocks",
    "Tm.Alloc.C27_dismissed"
   ],
   "note": "Allocator guard restores the saved state. C27_outer_blocks_partial: C27: the blocks held before a scope keep their bytes, and no block taken in the scope overlaps them, if the scope uses the allocator in stack order and only touches its own blocks. Partial: requests of 2^62 bytes or more and frees out of stack order are left out, and so are histories before the scope which `Reachable` leaves out; see `C27_not_outer_blocks`. C27_not_outer_blocks: C27 does not hold for huge sizes: after a request whose size wraps around, a scope is handed a block that overlaps one held before the scope."
  },
  {
   "property": "C28",
   "status": "partial",
   "theorems": [
    "Tm.Alloc.C28_recent_partial",
    "Tm.Alloc.C28_newest_is_recent_partial",
    "Tm.Alloc.C28_contents_partial",
    "Tm.Alloc.C28_not_bounded",
    "Tm.Alloc.C28_not_fresh"
   ],
   "note": "In-place reallocation keeps the block. C28_recent_partial: C28: resizing (to less than 2^62 bytes) a block of the buffer that the allocator recognises as the most recent one: it keeps its address and no byte of the buffer changes; it succeeds exactly if the new size fits behind the block's start in the buffer, and otherwise nothing changes. (Partial: whether the newest block is recognised is a different matter, see `C28_newest_is_recent_partial`.) C28_newest_is_recent_partial: C28 (partial): right after a block was handed out it is recognised as the most recent one. (After frees this holds in histories without reallocation and with a single alignment, `C26_interleaved_uniform`; not in general, see `C26_not_after_realloc`.) C28_contents_partial: C28 (partial): in a reachable state, resizing any live block keeps all other live blocks and their bytes. The block itself is left as it is (failure, or an older block that is to shrink), or is gone (new size 0), or has exactly the new size and keeps its bytes up to the smaller of both sizes, at the same or at a new address. (Missing: histories that mix alignments out of stack order, and huge sizes, see `C25_not_disjoint` and `C28_not_bounded`.) C28_not_bounded: C28 fails for huge sizes: `sz + (new_size - old_size)` overflows and growing beyond the buffer is reported as a success. C28_not_fresh: C28 fails on a fresh allocator: `last_popped_alignment` starts as 0, so that reallocating from an empty block asserts before anything was allocated."
  },
  {
   "property": "C29",
   "status": "partial",
   "theorems": [
    "Tm.Alloc.C29_live_partial",
    "Tm.Alloc.C29_create_partial",
    "Tm.Alloc.C29_no_fault_partial",
    "Tm.Alloc.C29_not_own_slot"
   ],
   "note": "Id allocator never hands out a live id twice. C29_live_partial: C29: in every reachable state the live ids are distinct, and each resolves to storage of its own: inside the allocation, a whole slot, overlapping no other live id's. Partial: only while the storage has at most 2^31 bytes, see `C29_not_own_slot`. C29_create_partial: C29: `create` never faults on an allocator that has storage, and whatever `realloc` answers it returns 0 or an id that is not live. If some id was handed out before and is not live now, it returns such an id, and the storage does not grow. Partial: only while the storage has at most 2^31 bytes, before and after. C29_no_fault_partial: C29: destroying a live id and storing into a live element never fault. C29_not_own_slot: C29 does not hold for storage of more than 4 GiB: the byte offset of a slot is computed modulo 2^32, so that two live ids resolve to the same storage."
  },
  {
   "property": "C30",
   "status": "partial",
   "theorems": [
    "Tm.Alloc.C30_stale_partial"
   ],
   "note": "Stale generational ids are rejected. C30_stale_partial: C30: in every reachable state every destroyed id is rejected, whatever happened to its slot since. Partial: only while the storage has at most 2^31 bytes and fewer than 2^23 - 1 slots. (This says little about slots in use again: the code never marks such a slot as in use, see `C31_not_reused`.)"
  },
  {
   "property": "C31",
   "status": "partial",
   "theorems": [
    "Tm.Alloc.C31_distinct_partial",
    "Tm.Alloc.C31_first_use_partial",
    "Tm.Alloc.C31_not_reused",
    "Tm.Alloc.C31_not_create"
   ],
   "note": "Live generational ids resolve. C31_distinct_partial: C31: in every reachable state the live ids are distinct. Partial: bounded storage as in C30. C31_first_use_partial: C31: a live id of generation 0, one whose slot was never used before, resolves to the slot it names, which no other live id resolves to. Partial: ids of later generations do not resolve at all, see `C31_not_reused`; bounded storage as in C30. C31_not_reused: C31 does not hold for a slot that is used again: in every reachable state (of bounded storage) a live id of a generation other than 0 does not resolve, since `create` hands out the slot without marking it as in use. C31_not_create: C31: `create` stops at an assertion once a free list that does not end in slot 0 is used up."
  },
  {
   "property": "C32",
   "status": "proved",
   "theorems": [
    "Tm.Uni.C32_encode",
    "Tm.Uni.C32_encode_short",
    "Tm.Uni.C32_extract",
    "Tm.Uni.C32_round_trip"
   ],
   "note": "UTF-8 encoding of a code point round-trips and is the standard encoding"
  },
  {
   "property": "C33",
   "status": "proved",
   "theorems": [
    "Tm.Uni.C33_encode",
    "Tm.Uni.C33_encode_short",
    "Tm.Uni.C33_extract",
    "Tm.Uni.C33_round_trip"
   ],
   "note": "UTF-16 encoding of a code point round-trips"
  },
  {
   "property": "C34",
   "status": "partial",
   "theorems": [
    "Tm.Uni.C34_extract_partial",
    "Tm.Uni.C34_not_overlong",
    "Tm.Uni.C34_not_continuation"
   ],
   "note": "Extraction only accepts well-formed UTF-8. C34_extract_partial: `tmu_utf8_extract` never reads past the end and yields scalar values only; it succeeds on every well-formed character, so that a failure means that no well-formed character starts there; and what it accepts in addition are overlong forms and sequences with a wrong continuation byte. What is missing for the full claim: that it rejects these (see `C34_not_overlong` and `C34_not_continuation`). C34_not_overlong: The overlong two byte form of U+0000 is accepted. C34_not_continuation: A lead byte followed by two arbitrary bytes is accepted."
  },
  {
   "property": "C35",
   "status": "proved",
   "theorems": [
    "Tm.Uni.C35_utf8",
    "Tm.Uni.C35_utf16",
    "Tm.Uni.C35_utf8_iff",
    "Tm.Uni.C35_utf16_iff"
   ],
   "note": "The valid range is the longest well-formed prefix"
  },
  {
   "property": "C36",
   "status": "proved",
   "theorems": [
    "Tm.Uni.C36_copy_truncated"
   ],
   "note": "Truncated copy never cuts a character"
  },
  {
   "property": "C37",
   "status": "proved",
   "theorems": [
    "Tm.Uni.C37_utf8_from_utf16",
    "Tm.Uni.C37_utf16_from_utf8",
    "Tm.Uni.C37_round_trip",
    "Tm.Uni.C37_round_trip16",
    "Tm.Uni.C37_ill_formed_utf16",
    "Tm.Uni.C37_not_ill_formed_utf8"
   ],
   "note": "UTF-8 <-> UTF-16 transcoding preserves the text"
  },
  {
   "property": "C38",
   "status": "proved",
   "theorems": [
    "Tm.Uni.C38_utf8_from_utf16",
    "Tm.Uni.C38_ill_formed_utf16",
    "Tm.Uni.C38_utf16_from_utf8",
    "Tm.Uni.C38_utf8_append",
    "Tm.Uni.C38_utf16_append"
   ],
   "note": "Transcoding reports the required size"
  },
  {
   "property": "C39",
   "status": "partial",
   "theorems": [
    "Tm.Uni.C39_terminates_partial",
    "Tm.Uni.C39_terminates_utf8_partial",
    "Tm.Uni.C39_not_terminating_utf16",
    "Tm.Uni.C39_not_terminating_utf8"
   ],
   "note": "Transcoding terminates under every validation mode. C39_terminates_partial: In the modes `error` and `skip`, and in the mode `replace` as long as nothing needs to be replaced, the number of rounds is at most the length of the input. (The outcomes are described by C37 and C38.) What is missing for the full claim: the mode `replace` on other inputs, see `C39_not_terminating_utf16` and `C39_not_terminating_utf8`. C39_terminates_utf8_partial: The same for `tmu_utf16_from_utf8_ex`. C39_not_terminating_utf16: On every ill-formed UTF-16 string the mode `replace` does not terminate, whatever the buffer: no number of rounds is enough. C39_not_terminating_utf8: Neither does it on UTF-8 that ends in the middle of a character or contains a byte 0xFF after a well-formed text."
  },
  {
   "property": "C40",
   "status": "partial",
   "theorems": [
    "Tm.Uni.C40_utf8_partial",
    "Tm.Uni.C40_utf16_partial",
    "Tm.Uni.C40_not_utf8",
    "Tm.Uni.C40_not_utf16"
   ],
   "note": "Skipping invalid UTF-8 keeps all valid text. C40_utf8_partial: `tmu_utf8_skip_invalid` terminates, never writes, and keeps the longest well-formed prefix; in particular the result is well-formed, and a well-formed string is kept as a whole. What is missing for the full claim: that later well-formed parts are kept as well, see `C40_not_utf8`. C40_utf16_partial: The same for `tmu_utf16_skip_invalid`. C40_not_utf8: Everything behind the first invalid byte is lost: the whole text of an arbitrary well-formed string that follows a byte 0xFF. C40_not_utf16: The same for UTF-16 and a lone trailing surrogate."
  },
  {
   "property": "C41",
   "status": "proved",
   "theorems": [
    "Tm.Uni.C41_compare",
    "Tm.Uni.C41_equals",
    "Tm.Uni.C41_equals_text"
   ],
   "note": "UTF-8 comparison is code point order"
  },
  {
   "property": "C42",
   "status": "proved",
   "theorems": [
    "Tm.Uni.C42_count",
    "Tm.Uni.C42_count_any"
   ],
   "note": "Code point counting"
  },
  {
   "property": "C43",
   "status": "partial",
   "theorems": [
    "Tm.Uni.C43_mark_partial",
    "Tm.Uni.C43_missing",
    "Tm.Uni.C43_not_alone",
    "Tm.Uni.C43_not_alone_wide",
    "Tm.Uni.C43_not_alone_declared",
    "Tm.Uni.C43_not_utf16"
   ],
   "note": "BOM handling. C43_mark_partial: A byte order mark that is followed by something selects the encoding, whether the caller declared the encoding (with or without the mark) or left it open, and it is not part of the output: the output is that of the text after the mark. Missing: input that consists of the mark alone, see `C43_not_alone`; UTF-16 that starts with U+0000 and has its encoding detected, see `C43_not_utf16`; UTF-16 with a lone lead surrogate before its end, see `C62_not_lone_lead`. C43_not_alone: The mark alone: it is put out as text when the encoding is UTF-8, C43_not_alone_wide: it is not recognised when the encoding is left open, for the other schemes, C43_not_alone_declared: and it is refused even when it was declared. C43_not_utf16: UTF-16 with a mark, U+0000 and more text: detected as UTF-32, and not converted to the text."
  },
  {
   "property": "C44",
   "status": "partial",
   "theorems": [
    "Tm.Str.C44_memrchr",
    "Tm.Str.C44_find_char",
    "Tm.Str.C44_find_char2",
    "Tm.Str.C44_find_last_char",
    "Tm.Str.C44_find_char_n",
    "Tm.Str.C44_find_char2_n",
    "Tm.Str.C44_find_last_char_n_ex",
    "Tm.Str.C44_find_last_char_n",
    "Tm.Str.C44_find_char_ignore_case",
    "Tm.Str.C44_find_char_ignore_case_n",
    "Tm.Str.C44_find_n",
    "Tm.Str.C44_find",
    "Tm.Str.C44_find_ignore_case_n",
    "Tm.Str.C44_find_ignore_case",
    "Tm.Str.C44_stristr",
    "Tm.Str.C44_find_last_n_ex_partial",
    "Tm.Str.C44_find_last_n_partial",
    "Tm.Str.C44_find_last_partial",
    "Tm.Str.C44_not_find_last_empty",
    "Tm.Str.C44_find_first_of",
    "Tm.Str.C44_find_first_not_of",
    "Tm.Str.C44_find_first_not_of_n",
    "Tm.Str.C44_find_first_of_n_partial",
    "Tm.Str.C44_not_find_first_of_n_empty",
    "Tm.Str.C44_find_last_of_n_ex",
    "Tm.Str.C44_find_last_of_n",
    "Tm.Str.C44_find_last_not_of_n_ex",
    "Tm.Str.C44_find_last_not_of_n",
    "Tm.Str.C44_find_last_of_partial",
    "Tm.Str.C44_find_last_not_of_partial",
    "Tm.Str.C44_not_find_last_of",
    "Tm.Str.C44_not_find_last_of_empty_string"
   ],
   "note": "Substring and character search find the first / last occurrence. C44_find_last_n_ex_partial: C44, restricted to a non-empty searched text: `tmsu_find_last_n_ex` returns the last occurrence. For an empty searched text, which occurs everywhere, see `C44_not_find_last_empty`. C44_find_last_n_partial: C44, restricted to a non-empty searched text: `tmsu_find_last_n`. C44_find_last_partial: C44, restricted to a non-empty searched text: `tmsu_find_last`. C44_not_find_last_empty: C44 fails for an empty searched text: `tmsu_find_last_n` returns the first position of `\"abcabc\"`, although the empty text also occurs later. C44_find_first_not_of: C44: `tmsu_find_first_not_of` returns the first position of a character outside the set, or the terminator. C44_find_first_not_of_n: C44: `tmsu_find_first_not_of_n`, for all ranges. C44_find_first_of_n_partial: C44, restricted to a non-empty set: `tmsu_find_first_of_n`. C44_not_find_first_of_n_empty: C44 fails for an empty set: `tmsu_find_first_of_n` reports a match at the first position although no character is in the set. C44_find_last_not_of_n_ex: C44: `tmsu_find_last_not_of_n_ex`, for all ranges and every `not_found`. C44_find_last_not_of_n: C44: `tmsu_find_last_not_of_n`, for all ranges. C44_find_last_of_partial: C44, restricted to strings that contain a character of the set: `tmsu_find_last_of`. C44_find_last_not_of_partial: C44, restricted to strings that contain a character outside the set: `tmsu_find_last_not_of`. C44_not_find_last_of: C44 fails for `tmsu_find_last_of` when no character of the string is in the set: it returns the start of the string, not the terminator as documented (and a match at the start cannot be told from no match). C44_not_find_last_of_empty_string: `tmsu_find_last_of` and `tmsu_find_last_not_of` leave the string when it is empty."
  },
  {
   "property": "C45",
   "status": "partial",
   "theorems": [
    "Tm.Str.C45_find_char_unescaped_n",
    "Tm.Str.C45_find_first_of_unescaped_n_partial",
    "Tm.Str.C45_not_first_of_empty",
    "Tm.Str.C45_find_char_unescaped_partial",
    "Tm.Str.C45_not_find_char_unescaped_empty",
    "Tm.Str.C45_find_first_of_unescaped_partial"
   ],
   "note": "Unescaped search honours escapes. C45_find_first_of_unescaped_n_partial: C45, restricted to a non-empty set: `tmsu_find_first_of_unescaped_n`. C45_not_first_of_empty: C45 fails for an empty set: `tmsu_find_first_of_unescaped_n` reports a match at the first position. C45_find_char_unescaped_partial: C45, restricted to a non-empty string and a character other than NUL: `tmsu_find_char_unescaped`. C45_not_find_char_unescaped_empty: C45 fails for the empty string: `tmsu_find_char_unescaped` skips the terminator and goes on searching behind the string (here it finds a character of the next object, or leaves the memory). C45_find_first_of_unescaped_partial: C45, restricted to a non-empty set: `tmsu_find_first_of_unescaped`."
  },
  {
   "property": "C46",
   "status": "partial",
   "theorems": [
    "Tm.Str.C46_next_token",
    "Tm.Str.C46_next_token_n_partial",
    "Tm.Str.C46_not_next_token_n_empty",
    "Tm.Str.C46_while_next_token_partial",
    "Tm.Str.C46_not_while_next_token",
    "Tm.Str.C46_next_token_skip_empty",
    "Tm.Str.C46_next_token_skip_empty_n_partial",
    "Tm.Str.C46_not_skip_empty_n_empty"
   ],
   "note": "Tokenizing is splitting at delimiters. C46_next_token_n_partial: C46: the same for `tmsu_next_token_n`, for all ranges and non-empty sets of delimiters. C46_not_next_token_n_empty: C46 fails for an empty set of delimiters: `tmsu_next_token_n` should give the text as the only piece, but cuts it into empty tokens. C46_while_next_token_partial: C46 for the usual loop `while (tmsu_next_token(...))`, which uses a token only when the call returned true: all pieces but the last. C46_not_while_next_token: C46 fails for the loop `while (tmsu_next_token(...))`: the last piece is never used, for any string. C46_next_token_skip_empty_n_partial: C46: the same for `tmsu_next_token_skip_empty_n`, for all ranges and non-empty sets of delimiters. C46_not_skip_empty_n_empty: C46 fails for an empty set of delimiters: the loop over `tmsu_next_token_skip_empty_n` never ends on a non-empty text, however many rounds it gets."
  },
  {
   "property": "C47",
   "status": "partial",
   "theorems": [
    "Tm.Str.C47_trim_left_n",
    "Tm.Str.C47_trim_left",
    "Tm.Str.C47_trim_right_n",
    "Tm.Str.C47_trim_n_partial",
    "Tm.Str.C47_not_trim_n"
   ],
   "note": "Trimming removes exactly the surrounding characters. C47_trim_n_partial: C47, for a text that is empty or has a character other than whitespace: `tmsu_trim_n` removes the whitespace on both sides and nothing else. C47_not_trim_n: C47 fails for `tmsu_trim_n` on a non-empty text of whitespace: the left end is moved to the right of the right end, and the assertion of `tmsu_view_n` fails."
  },
  {
   "property": "C48",
   "status": "proved",
   "theorems": [
    "Tm.Str.C48_compare_n",
    "Tm.Str.C48_compare",
    "Tm.Str.C48_compare_n_total_order",
    "Tm.Str.C48_equals_n",
    "Tm.Str.C48_starts_with_n",
    "Tm.Str.C48_ends_with_n",
    "Tm.Str.C48_starts_with",
    "Tm.Str.C48_ends_with"
   ],
   "note": "Byte string comparison is lexicographic"
  },
  {
   "property": "C49",
   "status": "partial",
   "theorems": [
    "Tm.Str.C49_antisymmetric",
    "Tm.Str.C49_not_transitive",
    "Tm.Str.C49_not_overflow",
    "Tm.Str.C49_human_compare_partial",
    "Tm.Str.C49_transitive_partial"
   ],
   "note": "Human comparison is a strict weak order. C49_not_transitive: C49 fails: `tmsu_human_compare_ansi_n` is not transitive. It says `\"1b\" < \"001\"`, `\"001\" < \"1aaa\"` and `\"1aaa\" < \"1b\"`. C49_not_overflow: C49 fails: a number with a value of at least 2\u00b3\u00b9 \u2212 256 makes `tmsu_human_compare_ansi_n` overflow an `int`. C49_human_compare_partial: C49, for texts whose numbers have no leading zeros and are small: `tmsu_human_compare_ansi_n` is the lexicographic comparison of the ranks of the tokens. C49_transitive_partial: C49, for texts whose numbers have no leading zeros and are small: the order is transitive."
  },
  {
   "property": "C50",
   "status": "partial",
   "theorems": [
    "Tm.Str.C50_compare_ignore_case_n",
    "Tm.Str.C50_stricmp",
    "Tm.Str.C50_equals_ignore_case_n",
    "Tm.Str.C50_starts_with_ignore_case_n",
    "Tm.Str.C50_ends_with_ignore_case_n",
    "Tm.Str.C50_ends_with_ignore_case",
    "Tm.Str.C50_compare_ignore_case_partial",
    "Tm.Str.C50_not_compare_ignore_case",
    "Tm.Str.C50_strnicmp_agree_partial",
    "Tm.Str.C50_strnicmp_differ_partial",
    "Tm.Str.C50_not_strnicmp",
    "Tm.Str.C50_starts_with_ignore_case_partial",
    "Tm.Str.C50_not_starts_with_ignore_case"
   ],
   "note": "Case-insensitive prefix/compare. C50_compare_ignore_case_partial: C50: `tmsu_compare_ignore_case_ansi` (outside Windows) gives the comparison with the sign reversed: it is the opposite order. Its zero is right. C50_not_compare_ignore_case: C50 fails for `tmsu_compare_ignore_case_ansi`: the sign is wrong whenever the texts differ. C50_strnicmp_agree_partial: C50, first part: `tmsu_strnicmp(a, b, n)` is zero if the texts agree, up to case, in the first `n + 1` characters. C50_strnicmp_differ_partial: C50, second part: `tmsu_strnicmp(a, b, n + 1)` compares the first `n + 1` characters rightly if there is a difference in the first `n`. C50_not_strnicmp: C50 fails for `tmsu_strnicmp` in both directions: it calls `\"abC\"` and `\"abd\"` equal in the first three characters, and different in the first two. C50_starts_with_ignore_case_partial: C50, what `tmsu_starts_with_ignore_case_ansi` decides: the last character of the searched text is never looked at. C50_not_starts_with_ignore_case: C50 fails for `tmsu_starts_with_ignore_case_ansi`: `\"abC\"` is said to start with `\"abd\"`."
  },
  {
   "property": "C51",
   "status": "proved",
   "theorems": [
    "Tm.Str.C51_encode",
    "Tm.Str.C51_encode_url",
    "Tm.Str.C51_decode",
    "Tm.Str.C51_decode_url",
    "Tm.Str.C51_round_trip",
    "Tm.Str.C51_round_trip_url"
   ],
   "note": "Base64 round-trips"
  },
  {
   "property": "C52",
   "status": "partial",
   "theorems": [
    "Tm.Str.C52_encode_size",
    "Tm.Str.C52_encode_url_size",
    "Tm.Str.C52_encode_partial",
    "Tm.Str.C52_not_encode_exact",
    "Tm.Str.C52_not_encode_size",
    "Tm.Str.C52_not_encode_protocol",
    "Tm.Str.C52_not_encode_url_protocol",
    "Tm.Str.C52_decode_partial",
    "Tm.Str.C52_decode_url_partial",
    "Tm.Str.C52_not_decode_exact",
    "Tm.Str.C52_not_decode_strict"
   ],
   "note": "Base64 two-call size protocol. C52_encode_partial: C52, the part that holds: a returned size that is *smaller* than the buffer means that the text is complete (if the buffer has at least three cells more than the returned size, or the input is a multiple of three bytes), and a second call with a buffer of three cells more than the returned size is complete. Missing: a buffer of exactly the returned size. C52_not_encode_exact: C52 fails for a buffer of exactly the returned size: nothing of the last group is written, but the call reports success. C52_not_encode_size: C52 fails for the size reported to a caller without a buffer: for one byte it is 2, and a buffer of two cells is then reported as sufficient although nothing is written correctly. C52_decode_partial: C52 for decoding: every text is either malformed, and then `tmsu_base64_decode` returns 0 for every buffer, or stands for some bytes; then their number is returned for every buffer, and they are complete if there is at least one cell more. Nothing is written outside of the buffer. A malformed text has the wrong length or a character outside of the alphabet; a well-formed one consists of the alphabet and `=`. Missing: the buffer of exactly the returned size. C52_not_decode_exact: C52 fails for decoding into a buffer of exactly the right size: success is reported, but the last byte is missing. C52_not_decode_strict: Two texts that RFC 4648 does not allow are accepted: a character after `=`, and a last group of a single character."
  },
  {
   "property": "C53",
   "status": "proved",
   "theorems": [
    "Tm.Str.C53_url_text",
    "Tm.Str.C53_url_round_trip"
   ],
   "note": "URL encoding round-trips"
  },
  {
   "property": "C54",
   "status": "proved",
   "theorems": [
    "Tm.Str.C54_url_encode",
    "Tm.Str.C54_url_decode",
    "Tm.Str.C54_url_decode_malformed"
   ],
   "note": "URL coding two-call size protocol"
  },
  {
   "property": "C55",
   "status": "proved",
   "theorems": [
    "Tm.Str.C55_strnrev",
    "Tm.Str.C55_strnrev_twice",
    "Tm.Str.C55_strrev"
   ],
   "note": "String reversal is an involution"
  },
  {
   "property": "C56",
   "status": "partial",
   "theorems": [
    "Tm.Str.C56_find_word_end_partial",
    "Tm.Str.C56_not_find_word_end_empty",
    "Tm.Str.C56_find_word_start"
   ],
   "note": "Word search skips whitespace and stops at separators. C56_find_word_end_partial: C56, restricted to a non-empty set of separators: `tmsu_find_word_end_n_ex` skips the leading whitespace and returns the first separator after it, or the end. C56_not_find_word_end_empty: C56 fails for an empty set of separators: the result is the first character of the word, not the end of the text."
  },
  {
   "property": "C57",
   "status": "proved",
   "theorems": [
    "Tm.Uni.C57_skip_utf16"
   ],
   "note": "Skipping while transcoding drops only what is invalid"
  },
  {
   "property": "C58",
   "status": "partial",
   "theorems": [
    "Tm.Alloc.C58_remaining_partial",
    "Tm.Alloc.C58_not_huge"
   ],
   "note": "The remaining room of a stack allocator is exact. C58_remaining_partial: C58: `remaining(alignment)` is exact: a request (of 1 byte to 2^62 bytes) with that alignment is granted if and only if its size is at most the reported number. Partial: larger requests are left out, see `C58_not_huge`, and so are buffers and alignments of more than 2^62 bytes. C58_not_huge: C58 does not hold for huge sizes: a request far larger than the reported number is granted."
  },
  {
   "property": "C59",
   "status": "partial",
   "theorems": [
    "Tm.Alloc.C59_layout_partial",
    "Tm.Alloc.C59_not_small"
   ],
   "note": "Elements of the generational allocator have storage of their own. C59_layout_partial: C59: the element of every slot is aligned as requested and lies in its slot behind the header. Partial: only for element sizes that are a multiple of 4, see `C59_not_small`. The storage is where `malloc` with the slot alignment can put it. C59_not_small: C59 does not hold for other sizes: with elements of one byte the element of slot 1 lies in the header of slot 2, and that header is not aligned."
  },
  {
   "property": "C60",
   "status": "partial",
   "theorems": [
    "Tm.Alloc.C60_next_partial",
    "Tm.Alloc.C60_not_end"
   ],
   "note": "Iterating the generational allocator visits the elements in use and stops. C60_next_partial: C60: from an element the iterator advances to the next slot in use, if there is one. Partial: the step from the last slot in use to the end is wrong, see `C60_not_end`. C60_not_end: C60 does not hold at the end: incrementing the iterator at the last slot in use looks at the slots behind it, and if none of these looks occupied it runs out of the storage."
  },
  {
   "property": "C61",
   "status": "proved",
   "theorems": [
    "Tm.Hash.C61_iterate",
    "Tm.Hash.C61_remove_index"
   ],
   "note": "Iterating over the indices of a hash map shows every entry exactly once"
  },
  {
   "property": "C62",
   "status": "partial",
   "theorems": [
    "Tm.Uni.C62_declared_partial",
    "Tm.Uni.C62_undeclared",
    "Tm.Uni.C62_every_string",
    "Tm.Uni.C62_empty",
    "Tm.Uni.C62_incomplete_partial",
    "Tm.Uni.C62_not_lone_lead",
    "Tm.Uni.C62_not_incomplete"
   ],
   "note": "Converting bytes of any encoding gives the text as UTF-8. C62_declared_partial: Bytes of a declared encoding, without a mark, are converted to the UTF-8 encoding of the text, invalid units being dropped, replaced or refused as asked for. Missing: UTF-16 with a lone lead surrogate before its end, see `C62_not_lone_lead`. C62_incomplete_partial: Trailing bytes that do not make up a unit are an error, as long as what is before them fits into the buffer. Missing: the same when it does not fit, see `C62_not_incomplete`, and UTF-16 with a lone lead surrogate before its end. C62_not_lone_lead: A lone lead surrogate makes the unit after it disappear too: the letter `A` is lost. C62_not_incomplete: Trailing bytes are not noticed when the buffer is too small: the reported size suffices for an attempt that fails."
  },
  {
   "property": "C63",
   "status": "partial",
   "theorems": [
    "Tm.Uni.C63_mark_partial",
    "Tm.Uni.C63_declared_partial",
    "Tm.Uni.C63_utf8_partial",
    "Tm.Uni.C63_refused",
    "Tm.Uni.C63_not_skip",
    "Tm.Uni.C63_not_replace",
    "Tm.Uni.C63_not_replace_last",
    "Tm.Uni.C63_not_owned"
   ],
   "note": "Converting bytes of any encoding into allocated memory. C63_mark_partial: UTF-16 and UTF-32 after a byte order mark: the text is put into new memory, for every way the allocations may turn out. Missing: as for `C43_mark_partial`. C63_declared_partial: UTF-16 and UTF-32 of a declared encoding, without a mark. Missing: as for `C62_declared_partial`. C63_utf8_partial: Well-formed UTF-8 is taken over: the block of the caller becomes the result, without the mark, and with a terminator if asked for. Missing: ill-formed text in the modes `skip` and `replace`, see `C63_not_skip` and `C63_not_replace`, and running out of memory, see `C63_not_owned`. C63_not_skip: In the mode `skip` everything after the first invalid byte is lost. C63_not_replace: In the mode `replace` an invalid byte that is followed by others makes the function move memory outside of the block. C63_not_replace_last: When it is the last one, the contents end in bytes that were never written. C63_not_owned: When there is no memory for the terminator, the block of the caller is freed and the caller is left with the pointer."
  },
  {
   "property": "C64",
   "status": "partial",
   "theorems": [
    "Tm.Uni.C64_text",
    "Tm.Uni.C64_ill_formed_partial"
   ],
   "note": "UTF-16 into a growing buffer. C64_ill_formed_partial: Ill-formed UTF-16: refused in the mode `error`, and the caller still has the block and its size; in the mode `skip` the contents are well-formed. Missing: the mode `replace`, in which the function does not return, see `C39_not_terminating_utf16`."
  },
  {
   "property": "C65",
   "status": "proved",
   "theorems": [
    "Tm.Json.C65_accepted_iff_json",
    "Tm.Json.C65_accepted_in_any_memory"
   ],
   "note": "A document is accepted exactly if its text is JSON"
  },
  {
   "property": "C66",
   "status": "proved",
   "theorems": [
    "Tm.Json.C66_structure",
    "Tm.Json.C66_memory"
   ],
   "note": "A document has the structure of its text"
  },
  {
   "property": "C67",
   "status": "partial",
   "theorems": [
    "Tm.Json.C67_content_partial",
    "Tm.Json.C67_numbers_partial",
    "Tm.Json.C67_strings_partial",
    "Tm.Json.C67_not_strings",
    "Tm.Json.C67_not_numbers",
    "Tm.Json.C67_not_names"
   ],
   "note": "A document holds what its text means. C67_content_partial: C67, partial: missing are texts that end in a digit, strings that end in an escape of two characters, and names with escapes. For all others, the document holds exactly what the text means: numbers as they are written, with their type, and the characters of strings and names. C67_numbers_partial: C67, partial: numbers are as they are written in every text that does not end in a digit, whatever its strings are. C67_strings_partial: C67, partial: strings are unescaped in every text whose strings do not end in an escape of two characters, whatever its names are. C67_not_strings: C67 fails: the text `[\"\\n\"]` is an array with a newline; the document holds the letter `n`. C67_not_numbers: C67 fails: the text `12` is the number 12; the document has an empty number. C67_not_names: C67 fails: the name in `{\"\\t\":0}` is a tab; the document has a name of two characters."
  },
  {
   "property": "C68",
   "status": "partial",
   "theorems": [
    "Tm.Json.C68_safe_partial",
    "Tm.Json.C68_not_safe",
    "Tm.Json.C68_not_safe_comments",
    "Tm.Json.C68_not_safe_single_quotes",
    "Tm.Json.C68_not_written",
    "Tm.Json.C68_not_readable"
   ],
   "note": "No text makes the document reader leave its memory. C68_safe_partial: C68, partial: missing are texts that end within the exponent of a number. For all others, in memory of any size, the program neither reads nor writes outside of its memory, no assertion fails, and it ends. C68_not_safe: C68 fails: for the text `1e` the program reads behind the end of the text, at every address of the memory. C68_not_safe_comments: C68 fails with comments: a bracket in a comment is counted, and more elements are written than were allocated. C68_not_safe_single_quotes: C68 fails with strings in single quotation marks: a bracket in such a string is counted, and more elements are written than were allocated. C68_not_written: C68 fails with comments: elements are reported that were never written. C68_not_readable: C68 fails with comments: the size of a number at the end of the text is that of the comment before it, and reading it leaves the text."
  },
  {
   "property": "C69",
   "status": "proved",
   "theorems": [
    "Tm.Json.C69_document_ends",
    "Tm.Json.C69_tokens_end",
    "Tm.Json.C69_skipping_ends"
   ],
   "note": "Reading JSON ends"
  },
  {
   "property": "C70",
   "status": "partial",
   "theorems": [
    "Tm.Json.C70_unescape_partial",
    "Tm.Json.C70_inside_the_buffer_partial",
    "Tm.Json.C70_not_last_escape",
    "Tm.Json.C70_not_inside_the_buffer"
   ],
   "note": "Unescaping a string gives its characters and stays inside of the buffer. C70_unescape_partial: C70, partial: missing are strings that end in an escape of two characters, and buffers shorter than the escaped string. Otherwise the buffer holds the characters that the string stands for. C70_inside_the_buffer_partial: C70, partial: any bytes are copied without writing outside of a buffer that is as large as the string. Missing are smaller buffers. C70_not_last_escape: C70 fails: the last escape of a string is not replaced. C70_not_inside_the_buffer: C70 fails: with a buffer of one byte, this string of escapes is written behind the buffer."
  },
  {
   "property": "C71",
   "status": "proved",
   "theorems": [
    "Tm.Json.C71_blocks"
   ],
   "note": "Blocks of the document memory do not overlap"
  },
  {
   "property": "C72",
   "status": "partial",
   "theorems": [
    "Tm.Json.C72_given_back_partial",
    "Tm.Json.C72_not_given_back"
   ],
   "note": "Memory that a string does not need can be used again. C72_given_back_partial: C72, partial: missing are strings with escapes. A string without escapes takes exactly its bytes from the pool. C72_not_given_back: C72 fails: a string of three characters that is written with four should leave five of eight bytes; only three are left."
  },
  {
   "property": "C73",
   "status": "partial",
   "theorems": [
    "Tm.Json.C73_memory_partial",
    "Tm.Json.C73_not_reported",
    "Tm.Json.C73_not_out_of_memory"
   ],
   "note": "Too little memory for a document is reported. C73_memory_partial: C73, partial: missing is that too little memory is reported, which is false, see below. With 32 bytes for each byte of the text the result is complete; with less, what is accepted is at least a text of the grammar. C73_not_reported: C73 fails: without memory for the characters of a string, the string is null and success is reported. C73_not_out_of_memory: C73 fails: without memory for the elements of an array, an unexpected token is reported."
  },
  {
   "property": "C74",
   "status": "proved",
   "theorems": [
    "Tm.Json.C74_events",
    "Tm.Json.C74_depth"
   ],
   "note": "Reading tokens reports a text completely and in order"
  },
  {
   "property": "C75",
   "status": "partial",
   "theorems": [
    "Tm.Json.C75_json_is_accepted",
    "Tm.Json.C75_accepted_partial",
    "Tm.Json.C75_one_value_partial",
    "Tm.Json.C75_not_strings",
    "Tm.Json.C75_not_array_and_string",
    "Tm.Json.C75_not_empty"
   ],
   "note": "Reading tokens to the end accepts exactly JSON. C75_accepted_partial: C75: what is read to its end consists of values in a row, with nothing but white space around them, of which at most one is not a string. C75_one_value_partial: C75: so if it is one value, it is a JSON text. C75_not_strings: C75 fails: two strings are read to the end without an error. C75_not_array_and_string: C75 fails: an array and a string are read to the end without an error. C75_not_empty: C75 fails: the empty text is read to the end without an error."
  },
  {
   "property": "C76",
   "status": "proved",
   "theorems": [
    "Tm.Json.C76_memory",
    "Tm.Json.C76_needs_an_entry_per_255"
   ],
   "note": "The memory of the context stack decides only when reading stops"
  },
  {
   "property": "C77",
   "status": "proved",
   "theorems": [
    "Tm.Json.C77_brackets",
    "Tm.Json.C77_ends"
   ],
   "note": "Tokens have matching brackets, and there is an end of them"
  },
  {
   "property": "C78",
   "status": "partial",
   "theorems": [
    "Tm.Json.C78_safe_partial",
    "Tm.Json.C78_not_safe"
   ],
   "note": "Reading tokens is memory safe. C78_safe_partial: C78, partial: missing are texts that end within the exponent of a number, and other flags. For all others, with any memory, reading tokens stays within the text and the memory, no assertion fails, and it ends. C78_not_safe: C78 fails: for the text `1e` the program reads behind the end of the text."
  },
  {
   "property": "C79",
   "status": "proved",
   "theorems": [
    "Tm.Pack.C79_placed_inside_and_apart",
    "Tm.Pack.C79_insert"
   ],
   "note": "Guillotine packing never overlaps"
  },
  {
   "property": "C80",
   "status": "proved",
   "theorems": [
    "Tm.Pack.C80_tiling",
    "Tm.Pack.C80_area"
   ],
   "note": "Guillotine packing loses no space"
  },
  {
   "property": "C81",
   "status": "proved",
   "theorems": [
    "Tm.Pack.C81_finds",
    "Tm.Pack.C81_best"
   ],
   "note": "Guillotine insertion finds the best free rectangle"
  },
  {
   "property": "C82",
   "status": "proved",
   "theorems": [
    "Tm.Pack.C82_static_memory",
    "Tm.Pack.C82_dynamic_memory"
   ],
   "note": "The documented memory suffices for guillotine packing"
  },
  {
   "property": "C83",
   "status": "proved",
   "theorems": [
    "Tm.Pack.C83_batch"
   ],
   "note": "A guillotine batch is a greedy sequence of insertions"
  },
  {
   "property": "C84",
   "status": "partial",
   "theorems": [
    "Tm.Pack.C84_clear",
    "Tm.Pack.C84_reset_partial",
    "Tm.Pack.C84_not_noted_by_reset"
   ],
   "note": "Clearing and resetting a pack. C84_reset_partial: After a reset to any size every history without a clear leaves rectangles that tile the bin of the new size. C84_not_noted_by_reset: But a reset does not note the size: a 10\u00d710 pack that is reset to 5\u00d75 and then cleared takes a 10\u00d710 rectangle again, so that the placed rectangle does not lie in the bin."
  },
  {
   "property": "C85",
   "status": "partial",
   "theorems": [
    "Tm.Pack.C85_not_any_size",
    "Tm.Pack.C85_no_fault_partial"
   ],
   "note": "Guillotine packing does not overflow integers. C85_not_any_size: In a bin of 65536\u00d765536, whose area is not representable, looking for a place by area is undefined. C85_no_fault_partial: As long as the area of the bin is representable no use of the pack overflows or fails in any other way, with memory that grows."
  },
  {
   "property": "C86",
   "status": "proved",
   "theorems": [
    "Tm.Pack.C86_inside",
    "Tm.Pack.C86_insert"
   ],
   "note": "MaxRects packing stays in the bin and keeps sizes"
  },
  {
   "property": "C87",
   "status": "partial",
   "theorems": [
    "Tm.Pack.C87_apart_partial",
    "Tm.Pack.C87_not_apart"
   ],
   "note": "MaxRects packing never overlaps. C87_apart_partial: As long as no rectangle had exactly the size of a free rectangle, the placed rectangles share no cell, also after one more insertion of any size, and their areas add up to at most the area of the bin. C87_not_apart: In general they do overlap. In a bin of 10\u00d710, after rectangles of 5\u00d75 and 5\u00d710, of which the second fills a free rectangle exactly, there is a place for one of 10\u00d75: it overlaps the second, and more area is used than there is."
  },
  {
   "property": "C88",
   "status": "partial",
   "theorems": [
    "Tm.Pack.C88_finds_partial",
    "Tm.Pack.C88_maximal_partial",
    "Tm.Pack.C88_not_finds"
   ],
   "note": "MaxRects finds a place if there is one anywhere. C88_finds_partial: As long as no rectangle had exactly the size of a free rectangle, a rectangle of any size is placed if and only if there is a place for it anywhere in the bin that shares no cell with those placed before. C88_maximal_partial: As long as no rectangle had exactly the size of a free rectangle, the free rectangles are exactly the maximal empty ones. C88_not_finds: In general a rectangle is placed although there is no place for it."
  },
  {
   "property": "C89",
   "status": "proved",
   "theorems": [
    "Tm.Pack.C89_best"
   ],
   "note": "MaxRects insertion takes the best place"
  },
  {
   "property": "C90",
   "status": "partial",
   "theorems": [
    "Tm.Pack.C90_not_enough",
    "Tm.Pack.C90_not_growing",
    "Tm.Pack.C90_no_fault_partial"
   ],
   "note": "The documented memory suffices for MaxRects. C90_not_enough: The recommended memory for the worst case, five times the number of rectangles, does not suffice: eleven rectangles in a bin of 30\u00d730 run into the assertion for static memory with room for 55 free rectangles. C90_not_growing: With memory that grows, an insertion for which it has to grow is undefined: it goes on reading the old block. C90_no_fault_partial: An insertion that finds memory for four times as many free rectangles as there are, and one more, ends without error, if the numbers are representable and no free rectangle has exactly the size of the rectangle."
  },
  {
   "property": "C91",
   "status": "partial",
   "theorems": [
    "Tm.Pack.C91_batch_partial",
    "Tm.Pack.C91_not_best"
   ],
   "note": "A MaxRects batch inserts in the order of the ranks. C91_batch_partial: After any history, `maxRectsInsertBatch` does what inserting one rectangle after the other in some order does, until there is room for none of the remaining. The rectangles are only reordered: those without a place come first, and the others follow in the reverse of the order of the results, each of which has the user data and the size of its rectangle. By all rules but one, every step takes the rectangle that has the best place. C91_not_best: By the long side rule the order is not that of the ranks: of 9\u00d72 and 5\u00d75 in an empty bin of 10\u00d710, 9\u00d72 is taken first, although the longer side that is left over is 8, and with 5\u00d75 it is 5."
  },
  {
   "property": "C92",
   "status": "partial",
   "theorems": [
    "Tm.Pack.C92_not_any_area",
    "Tm.Pack.C92_not_any_outline",
    "Tm.Pack.C92_choice_partial"
   ],
   "note": "Looking for a place in a MaxRects pack does not overflow. C92_not_any_area: The area of the rectangle must be representable by the area rule, even if there is no room for it. C92_not_any_outline: By the contact rule, a rectangle that fills a bin of 2147483647\u00d71 makes the sum of the sides overflow. C92_choice_partial: If the numbers that the rule computes with are representable, looking for a place does not fail."
  },
  {
   "property": "C93",
   "status": "proved",
   "theorems": [
    "Tm.Pack.C93_split"
   ],
   "note": "The rest of a free rectangle is cut as the split rule says"
  },
  {
   "property": "C94",
   "status": "proved",
   "theorems": [
    "Tm.Pack.C94_merge"
   ],
   "note": "Merging joins something if anything can be joined"
  },
  {
   "property": "C95",
   "status": "partial",
   "theorems": [
    "Tm.Pack.C95_not_all_joined",
    "Tm.Pack.C95_repeated_partial"
   ],
   "note": "After merging nothing can be joined any more. C95_not_all_joined: After merging there may still be two free rectangles that are together a rectangle: the first two rectangles below are joined, and the result is not compared again with the third. C95_repeated_partial: After merging as often as there are free rectangles no two of the free rectangles are together a rectangle."
  },
  {
   "property": "C96",
   "status": "proved",
   "theorems": [
    "Tm.Vec.C96_no_fault",
    "Tm.Vec.C96_elements"
   ],
   "note": "A small_vector is a list"
  },
  {
   "property": "C97",
   "status": "proved",
   "theorems": [
    "Tm.Vec.C97_memory",
    "Tm.Vec.C97_room"
   ],
   "note": "An operation of a small_vector succeeds when there is memory or room"
  },
  {
   "property": "C98",
   "status": "proved",
   "theorems": [
    "Tm.Vec.C98_static"
   ],
   "note": "A static_vector takes exactly what fits"
  },
  {
   "property": "C99",
   "status": "proved",
   "theorems": [
    "Tm.Vec.C99_released"
   ],
   "note": "The destructor of a small_vector releases exactly what the vector owns"
  },
  {
   "property": "C100",
   "status": "partial",
   "theorems": [
    "Tm.Vec.C100_kept_partial",
    "Tm.Vec.C100_not_moved"
   ],
   "note": "A failed operation of a small_vector changes nothing. C100_kept_partial: The block of the vector in the examples exists before, and not after. C100_not_moved: The vector `[1]`, without memory for more, after an attempt to add its own element by moving it: the value is gone."
  },
  {
   "property": "C101",
   "status": "partial",
   "theorems": [
    "Tm.Vec.C101_full_partial",
    "Tm.Vec.C101_not_reserved"
   ],
   "note": "reserve gives the capacity asked for. C101_not_reserved: A new vector with a small buffer of two elements: `reserve(4)` succeeds, and the capacity is still two."
  },
  {
   "property": "C102",
   "status": "proved",
   "theorems": [
    "Tm.Vec.C102_requests"
   ],
   "note": "push_back makes few requests to the heap"
  },
  {
   "property": "C103",
   "status": "proved",
   "theorems": [
    "Tm.Vec.C103_copy",
    "Tm.Vec.C103_assign"
   ],
   "note": "Copies of a small_vector have its elements"
  },
  {
   "property": "C104",
   "status": "proved",
   "theorems": [
    "Tm.Vec.C104_move",
    "Tm.Vec.C104_assign"
   ],
   "note": "A moved small_vector hands over its elements"
  },
  {
   "property": "C105",
   "status": "partial",
   "theorems": [
    "Tm.Vec.C105_swap_partial",
    "Tm.Vec.C105_not_exchanged",
    "Tm.Vec.C105_not_capacity"
   ],
   "note": "swap exchanges two small_vectors. C105_swap_partial: Two vectors on the heap, one of which has outgrown its small buffer. C105_not_exchanged: Three elements on the heap, none in the other vector with a small buffer of two elements: the third one is written behind the buffer. C105_not_capacity: Where the elements are exchanged, the capacities are too, although the buffers are not: the small buffer of two elements claims to have room for three."
  },
  {
   "property": "C106",
   "status": "partial",
   "theorems": [
    "Tm.Vec.C106_trivial_partial",
    "Tm.Vec.C106_not_kept",
    "Tm.Vec.C106_not_assign",
    "Tm.Vec.C106_not_range"
   ],
   "note": "Inserting or assigning nothing is allowed. C106_not_kept: Every element behind the position is assigned to itself by a move. C106_not_assign: `assign(0, value)` fails an assertion if the vector has no storage yet. C106_not_range: So does the insertion of an empty range of null pointers."
  },
  {
   "property": "C107",
   "status": "partial",
   "theorems": [
    "Tm.Vec.C107_room_partial",
    "Tm.Vec.C107_not_grown",
    "Tm.Vec.C107_not_shifted"
   ],
   "note": "emplace takes references to own elements. C107_not_grown: The vector `[1]` is full. `v.emplace_back(v[0])` reads the element after its storage is gone. C107_not_shifted: The vector `[1, 2]` has room. `v.emplace(v.begin(), v[1])` inserts `1` instead of `2`."
  },
  {
   "property": "C108",
   "status": "partial",
   "theorems": [
    "Tm.Vec.C108_not_refused",
    "Tm.Vec.C108_capacity_partial"
   ],
   "note": "The storage of a small_vector has room for its capacity. C108_not_refused: Room for `2^61` elements of eight bytes is granted: `2^64` bytes are `0` bytes. The first element is written out of bounds."
  },
  {
   "property": "C109",
   "status": "partial",
   "theorems": [
    "Tm.Vec.C109_capacity_partial",
    "Tm.Vec.C109_not_capacity"
   ],
   "note": "A static_vector keeps its capacity. C109_not_capacity: A failed `assign(n, value)` leaves a vector that has no room for anything."
  },
  {
   "property": "C110",
   "status": "proved",
   "theorems": [
    "Tm.Json.C110_signed",
    "Tm.Json.C110_unsigned"
   ],
   "note": "64 bit integers in a document are read exactly"
  },
  {
   "property": "C111",
   "status": "partial",
   "theorems": [
    "Tm.Json.C111_not_range",
    "Tm.Json.C111_signed_partial",
    "Tm.Json.C111_unsigned_partial"
   ],
   "note": "32 bit integers in a document are read exactly. C111_not_range: **C111 does not hold.** Numbers that need more than 32 bits are cut, instead of giving the default value. C111_signed_partial: **C111, in part.** `jsonGetInt` gives the integer if it is representable in 32 bits, and the default value if it is not representable in 64 bits. Missing: the default value for integers in between, see `C111_not_range`. C111_unsigned_partial: **C111, in part.** `jsonGetUInt` gives the integer if it is representable in 32 bits, and the default value if it is negative or not representable in 64 bits."
  },
  {
   "property": "C112",
   "status": "partial",
   "theorems": [
    "Tm.Json.C112_not_value",
    "Tm.Json.C112_not_faultless",
    "Tm.Json.C112_cut_partial"
   ],
   "note": "Hexadecimal numbers in a document are read exactly. C112_not_value: **C112 does not hold.** The value of a hexadecimal number is not its value: the last two digits are lost. C112_not_faultless: **C112 does not hold.** A hexadecimal number of one digit fails an assertion. C112_cut_partial: **C112, in part.** What holds of hexadecimal numbers of at least two digits: the result is the value of the digits without the last two, if it is representable and these are at most 64 digits. Missing: the last two digits, see `C112_not_value`."
  },
  {
   "property": "C113",
   "status": "proved",
   "theorems": [
    "Tm.Json.C113_written",
    "Tm.Json.C113_types"
   ],
   "note": "Booleans are read from every value"
  },
  {
   "property": "C114",
   "status": "proved",
   "theorems": [
    "Tm.Json.C114_lookups",
    "Tm.Json.C114_value"
   ],
   "note": "A lookup in an object finds a member exactly if there is one"
  },
  {
   "property": "C115",
   "status": "partial",
   "theorems": [
    "Tm.Json.C115_not_history",
    "Tm.Json.C115_history_partial"
   ],
   "note": "Lookups do not influence each other. C115_not_history: **C115 does not hold.** In an object with two members of the same name, looking up another member changes which of the two is found. C115_history_partial: **C115, in part.** If the names are distinct, each lookup finds the member with the name, independently of earlier lookups. Missing: objects in which two members have the same name, see `C115_not_history`."
  },
  {
   "property": "C116",
   "status": "partial",
   "theorems": [
    "Tm.Json.C116_refers_partial",
    "Tm.Json.C116_not_digits",
    "Tm.Json.C116_not_index",
    "Tm.Json.C116_not_percent",
    "Tm.Json.C116_not_pointer"
   ],
   "note": "A JSON pointer gives the value it refers to. C116_refers_partial: **C116, in part.** A JSON pointer, also in the representation of fragment identifiers, gives the value it refers to, or null without a text if it refers to nothing. Missing, each with a counterexample below: tokens that start with a digit and are no array index below 2^64, objects with names that start with a digit, and digits, `~` and `/` that are percent-encoded. Texts that are not JSON pointers are in `C116_not_pointer`. Names with a NUL cannot be written in a pointer. Memory is granted, or the pointer is short. C116_not_digits: **C116 does not hold.** A member whose name starts with a digit is not found. C116_not_index: **C116 does not hold.** An index of 2^64 or more gives the first element; so does one of more than 64 digits. Indices with leading zeros, and digits followed by other characters, are accepted. C116_not_percent: **C116 does not hold.** A percent-encoded `~` or `/` is not treated like the character. C116_not_pointer: **C116 does not hold.** A text that is not a JSON pointer may give a value: what precedes the first slash is ignored."
  },
  {
   "property": "C117",
   "status": "proved",
   "theorems": [
    "Tm.Json.C117_safe"
   ],
   "note": "JSON pointers are safe for every text"
  },
  {
   "property": "C118",
   "status": "partial",
   "theorems": [
    "Tm.Async.C118_once_partial",
    "Tm.Async.C118_not_once"
   ],
   "note": "A work is executed at most once. C118_once_partial: C118 for programs in which no wait runs out of time and no work is freed while a worker thread, having executed it, has still to signal its event: whatever the threads do in whatever order, the procedure of a work is called at most once. C118_not_once: C118 does not hold in general. The work is executed while the main thread waits for it, for too short a time, and frees it. Its slot is given to a second work. When the procedure of the first work is called, the first thread executes the second work, which the second thread executes too."
  },
  {
   "property": "C119",
   "status": "partial",
   "theorems": [
    "Tm.Async.C119_finished_partial",
    "Tm.Async.C119_not_timeout",
    "Tm.Async.C119_not_signal"
   ],
   "note": "After a successful wait the work is done. C119_finished_partial: C119 for the same programs: when `tma_wait_single` or `tma_wait_single_for` returns `TM_OK` the procedure of the work has returned. C119_not_timeout: C119 does not hold in general. The first wait runs out of time. The second one succeeds although the procedure was never called. C119_not_signal: C119 does not hold in general even if no wait runs out of time. A thread has executed a work but has not signaled the event yet. The work is waited for and freed, and its slot is given to a second work. The thread signals the event, and the wait for the second work ends while its procedure is running."
  },
  {
   "property": "C120",
   "status": "partial",
   "theorems": [
    "Tm.Async.C120_runs_partial",
    "Tm.Async.C120_few_partial",
    "Tm.Async.C120_not_runs"
   ],
   "note": "No work is lost. C120_runs_partial: C120 for programs in which no wait runs out of time, no work is freed while a worker thread has still to signal its event, and no work is refused by the work queue, with at least one worker thread: when no thread can go on, every work that was handed to the worker threads has been executed. C120_few_partial: As long as at most 256 calls of `tma_push_async_work` and `tma_dispatch_async_work` were made the work queue refuses no work, whatever else the program does and in whatever order the threads do it. C120_not_runs: C120 does not hold in general. The last of 257 works is put into the dispatch queue. The dispatch thread ends when it could put this work into the work queue. The work is never executed."
  },
  {
   "property": "C121",
   "status": "partial",
   "theorems": [
    "Tm.Async.C121_returns_partial",
    "Tm.Async.C121_not_deferred"
   ],
   "note": "Calls return. C121_returns_partial: C121 for careful programs with at least one worker thread and at most 256 calls that hand work to it: however the threads go on, they go on for a bounded number of steps, and they can go on until the main thread has returned from the library, or waits with a limit of time. C121_not_deferred: C121 does not hold in general. A wait for a work that was not handed to the worker threads accesses the work queue at a negative position."
  },
  {
   "property": "C122",
   "status": "partial",
   "theorems": [
    "Tm.Async.C122_push_partial",
    "Tm.Async.C122_not_reuse"
   ],
   "note": "Freed works make room for new ones. C122_push_partial: C122 for the first 256 works, and if memory can be allocated, for all but the last ones that a handle could represent: a work can be pushed. C122_not_reuse: C122 does not hold in general. When 256 works were pushed and freed one after the other, none is in use, but no work can be pushed without further memory."
  },
  {
   "property": "C123",
   "status": "proved",
   "theorems": [
    "Tm.Async.C123_fresh",
    "Tm.Async.C123_one"
   ],
   "note": "Handles of works in use are different"
  },
  {
   "property": "C124",
   "status": "partial",
   "theorems": [
    "Tm.Async.C124_free_partial",
    "Tm.Async.C124_not_free",
    "Tm.Async.C124_not_queued"
   ],
   "note": "Freeing a work ends it. C124_free_partial: C124 for programs in which no wait runs out of time and no work is freed while a worker thread has still to signal its event: when a work was freed its procedure has returned if it was ever called, and is not called afterwards. C124_not_free: C124 does not hold in general: a work whose wait ran out of time is freed while its procedure is running. C124_not_queued: A work that waits to be executed cannot be freed: it is taken out of the queue, but then an assertion fails."
  },
  {
   "property": "C125",
   "status": "partial",
   "theorems": [
    "Tm.Async.C125_progress_partial",
    "Tm.Async.C125_cancel_partial",
    "Tm.Async.C125_not_progress",
    "Tm.Async.C125_not_cancel"
   ],
   "note": "Progress and cancellation reach the right work. C125_progress_partial: C125 for the same programs: `tma_get_progress` returns what the procedure of the work has reported last. C125_cancel_partial: C125 for the same programs: `tma_is_cancelled` returns true if and only if `tma_cancel` was called for this work. C125_not_progress: C125 does not hold in general: what the procedure of the first work reports is taken for the progress of the second one. C125_not_cancel: C125 does not hold in general: the procedure of the first work is told that it was cancelled when the second one was."
  },
  {
   "property": "C126",
   "status": "proved",
   "theorems": [
    "Tm.Async.C126_index",
    "Tm.Async.C126_error"
   ],
   "note": "Handles carry an index or an error"
  },
  {
   "property": "C127",
   "status": "partial",
   "theorems": [
    "Tm.Async.C127_no_fault_partial",
    "Tm.Async.C127_not_procedure"
   ],
   "note": "No call goes wrong. C127_no_fault_partial: C127 for careful programs in which no work is refused by the work queue: no step of any thread fails. C127_not_procedure: C127 does not hold in general: when a work whose wait ran out of time is freed before it is executed, a worker thread calls a procedure that is not there."
  },
  {
   "property": "C128",
   "status": "partial",
   "theorems": [
    "Tm.Xml.C128_denotes",
    "Tm.Xml.C128_terminated_partial",
    "Tm.Xml.C128_not_terminated"
   ],
   "note": "Escaped text is given back. C128_terminated_partial: Texts that are not empty are followed by a null terminator. What is missing: empty texts, see `C128_not_terminated`. C128_not_terminated: \"The output will be nullterminated if the buffer is big enough\" is false of the empty text: nothing is written."
  },
  {
   "property": "C129",
   "status": "partial",
   "theorems": [
    "Tm.Xml.C129_accepted_partial",
    "Tm.Xml.C129_not_wrap",
    "Tm.Xml.C129_not_utf8"
   ],
   "note": "Only escaped text is accepted. C129_accepted_partial: Whatever is accepted is an escaped form of some text. What is missing: strings that are not valid UTF-8 (`C129_not_utf8`), decimal character references of 2^32 and more (`C129_not_wrap`), and comments, in which \"<\" and \"]]>\" are accepted as they should be. C129_not_wrap: `&#4294967361;` is accepted and gives \"A\". C129_not_utf8: A byte that begins a sequence of two hides the \"<\" that follows it."
  },
  {
   "property": "C130",
   "status": "partial",
   "theorems": [
    "Tm.Xml.C130_fits",
    "Tm.Xml.C130_needed_partial",
    "Tm.Xml.C130_not_needed"
   ],
   "note": "The reported size can be relied on. C130_needed_partial: The size that is reported when the buffer was too small is enough: a buffer of this size gets the text, which is one byte shorter. What is missing: texts that need more than one byte for a character, see `C130_not_needed`; the empty text, for which the size 0 is reported; and carriage returns when newlines are turned into spaces. C130_not_needed: For a text of which the last character needs two bytes, the reported size is one less than what is needed when the buffer ends inside of it: the second call, with the reported size, fails again."
  },
  {
   "property": "C131",
   "status": "partial",
   "theorems": [
    "Tm.Xml.C131_writes",
    "Tm.Xml.C131_reads_partial",
    "Tm.Xml.C131_not_reads"
   ],
   "note": "Unescaping stays inside the string and the buffer. C131_reads_partial: The function ends, for every string, and reads nothing behind it, unless newlines are turned into spaces. What is missing: with this flag, the byte behind the string must be readable, see `C131_not_reads`. C131_not_reads: For \"\\rx\" in two bytes, with newlines turned into spaces, the byte behind the string is read."
  },
  {
   "property": "C132",
   "status": "partial",
   "theorems": [
    "Tm.Xml.C132_reduce_partial",
    "Tm.Xml.C132_not_reduce",
    "Tm.Xml.C132_newlines_partial",
    "Tm.Xml.C132_not_newlines",
    "Tm.Xml.C132_trim"
   ],
   "note": "Whitespace is trimmed as the flags say. C132_reduce_partial: With the flag for reducing spaces, every run of whitespace becomes one space, and what is trimmed at both ends is the whitespace there. What is missing: escapes and brackets, after which `last_was_whitespace` is not reset (`C132_not_reduce`), and carriage returns if newlines are kept. C132_not_reduce: \"x ] y\" loses the space in front of the \"y\", \"x &lt; y\" as well. C132_newlines_partial: With the flag for trimming newlines alone, every newline becomes a space, everything else is kept. What is missing: escapes, brackets and carriage returns (`C132_not_newlines`). C132_not_newlines: \"a\\r\\nb\" becomes \"a\", two spaces, \"b\"; and \"a\\rx\\nb\" keeps its carriage return."
  },
  {
   "property": "C133",
   "status": "partial",
   "theorems": [
    "Tm.Xml.C133_final",
    "Tm.Xml.C133_eof",
    "Tm.Xml.C133_error_partial",
    "Tm.Xml.C133_not_error"
   ],
   "note": "The end of reading is final. C133_error_partial: **C133** The call after an error token returns false. Missing: errors in comments behind the root, see `C133_not_error`. C133_not_error: **C133** is false of an error in a comment behind the root: `tmxml_unescape_current_token` turns the token into an error, but the context is already that for what is behind the root (lines 1174-1175), so that the next call reads the same comment and reports the same error again, and never returns false."
  },
  {
   "property": "C134",
   "status": "partial",
   "theorems": [
    "Tm.Xml.C134_ends_partial",
    "Tm.Xml.C134_not_ends"
   ],
   "note": "The reading loop ends. C134_ends_partial: **C134** Reading delivers at most one token more than the document has bytes, as long as no closing tag is delivered that closes nothing and reading stops at the first error. Missing: documents with such a closing tag, and reading on after an error, see `C134_not_ends` and `C133_not_error`. C134_not_ends: **C134** is false of a document that begins with a closing tag: when no tag is open, line 1044 returns the token without storing the tokenizer and without an error, so that every call delivers it again."
  },
  {
   "property": "C135",
   "status": "partial",
   "theorems": [
    "Tm.Xml.C135_nested_partial",
    "Tm.Xml.C135_not_names"
   ],
   "note": "Accepted documents are well-formed. C135_nested_partial: **C135** When reading has ended and the context is not that of an error, the tokens that were delivered form a document: exactly one root with comments and processing instructions around it, every opening tag with its attributes and its closing tag, properly nested, and the end. Missing: that the names of the tags match, see `C135_not_names`. C135_not_names: **C135** is false of the names: the name of a closing tag is not compared with that of the opening tag (lines 1033-1050), so that `<a></b>` is accepted."
  },
  {
   "property": "C136",
   "status": "partial",
   "theorems": [
    "Tm.Xml.C136_prolog",
    "Tm.Xml.C136_safe_partial",
    "Tm.Xml.C136_not_asserts"
   ],
   "note": "Reading is memory safe. C136_safe_partial: **C136** At any point of reading a document that consists of ASCII characters, has no numeric character references, and has no carriage returns if newlines are turned into spaces and spaces are not reduced, `nextToken` ends without failing an assertion or reading outside of the document, whether or not memory can be allocated. Missing: other documents, see `C136_not_asserts`. C136_not_asserts: **C136** is false of texts that do not fit into the buffer of the reader by less than a character: `tmxml_unescape_string` writes no part of the last character, leaves room for a byte and reports the size without the terminator; it then fits neither `*out_written < out_len` nor the assertion in line 1629 when it is done again with a buffer of this size."
  },
  {
   "property": "C137",
   "status": "partial",
   "theorems": [
    "Tm.Xml.C137_lines_partial",
    "Tm.Xml.C137_not_offset",
    "Tm.Xml.C137_not_column"
   ],
   "note": "Locations are right. C137_lines_partial: **C137** After any calls, the line of the tokenizer is the number of newlines (modulo 2^32) of the part of the document that was read, and the line of a token is the number of newlines in front of some place that is not before where the call that delivered it began. Missing: columns and offsets, see `C137_not_offset` and `C137_not_column`. C137_not_offset: **C137** is false of offsets: lines 400-401 count the bytes of the value of an attribute from behind its opening quote, so that every offset behind it is too small by one. The closing tag of `<a x='1'></a>` is at the offset 9 (its name at 11), but is reported at 10. C137_not_column: **C137** is false of columns: line 691 sets the column to the bytes read since the last newline or the beginning of the comment, and does not add them. The name `a` in `<!--b--><a></a>` is in column 9, but is reported in column 5."
  },
  {
   "property": "C138",
   "status": "partial",
   "theorems": [
    "Tm.Xml.C138_reads_partial",
    "Tm.Xml.C138_not_empty",
    "Tm.Xml.C138_not_compact",
    "Tm.Xml.C138_not_comment",
    "Tm.Xml.C138_not_instructions"
   ],
   "note": "Well-formed documents are read as what they are. C138_reads_partial: **C138** Calling `tmxml_next_token` until it returns false delivers exactly the tokens of a document, in order, with the references in values and texts replaced and with the right lines, and then the end. Missing: texts that do not fit into the buffer of the reader (C136), comments with \"&\", processing instructions that begin with \"xml\", tags without contents that have attributes (all of these are what `Doc True` has in addition, see `C138_not_empty`, `C138_not_compact`, `C138_not_comment` and `C138_not_instructions`), and flags that trim texts. C138_not_empty: **C138** is false of tags without contents that have attributes: line 1158 takes the value of the attribute for the name of the tag, so that the closing token of `<a x='1' />` has the name \"1\". C138_not_compact: **C138** is false of tags without contents whose \"/\" follows a value at once: line 1149 does not allow it there, so that `<a x='1'/>` is an error. C138_not_comment: **C138** is false of comments with \"&\": line 1174 unescapes them like character data, in which it must be part of a reference. `<!--&--><a/>` is an error. C138_not_instructions: **C138** is false of processing instructions that begin with \"xml\": lines 735-738 reject them all, not only the reserved target \"xml\". `<?xml-stylesheet?><a/>` is an error."
  },
  {
   "property": "C139",
   "status": "partial",
   "theorems": [
    "Tm.Xml.C139_declaration_partial",
    "Tm.Xml.C139_not_standalone",
    "Tm.Xml.C139_not_rejected"
   ],
   "note": "The XML declaration is read. C139_declaration_partial: **C139** `tmxml_read_prolog` reads the version, the encoding and the value of `standalone` of an XML declaration, and the tokens of the document behind it can then be read. Missing: declarations with `standalone=\"no\"`, see `C139_not_standalone`; that other declarations are rejected, see `C139_not_rejected`; and what is missing of C138. C139_not_standalone: **C139** is false of `standalone=\"no\"`: line 1273 compares three bytes with \"no\", so that the byte behind the value, its quote, must be null. The declaration is rejected. C139_not_rejected: **C139** is false of ill-formed declarations: what is not a name is taken for the end of the declaration (lines 1241 and 1281), so that `<?xml version='1.0' 1abc?>` is accepted."
  },
  {
   "property": "C140",
   "status": "partial",
   "theorems": [
    "Tm.Xml.C140_doctype_partial",
    "Tm.Xml.C140_not_literal"
   ],
   "note": "Document types are skipped. C140_doctype_partial: **C140** `tmxml_read_prolog` skips a document type, with comments in front of it, whose angle brackets are balanced, and the tokens of the document behind it can then be read. Missing: document types with angle brackets in literals or comments, see `C140_not_literal`, and what is missing of C138. C140_not_literal: **C140** is false of document types with an angle bracket in a literal: lines 1314-1335 count it. The document type of `<!DOCTYPE a [<!ENTITY b \"<\">]><a/>` is well-formed, but the loop reads to the end of the document, and nothing can be read behind it."
  },
  {
   "property": "C141",
   "status": "partial",
   "theorems": [
    "Tm.Xml.C141_copy_partial",
    "Tm.Xml.C141_not_terminated"
   ],
   "note": "Copies are complete. C141_copy_partial: **C141** `tmxml_copy_string` returns a buffer that begins with the bytes of the string, unless there is no memory. Missing: that it is terminated, see `C141_not_terminated`. C141_not_terminated: **C141** is false of every string that is not empty: lines 1650-1654 allocate no byte for the terminator and write none, so that the buffer that is returned has no byte behind the string."
  },
  {
   "property": "C142",
   "status": "partial",
   "theorems": [
    "Tm.Cli.C142_delivered_partial",
    "Tm.Cli.C142_not_delivered"
   ],
   "note": "Parsing a command line delivers what it says. C142_delivered_partial: Missing: the parser also stops, without an error, at a word that begins with \"--\" and goes on with something else than a letter or a digit, as for `--_x`. C142_not_delivered: The parser ends without an error at `--_x`, even if there is an option with this name, and this word and all words behind it are ignored."
  },
  {
   "property": "C143",
   "status": "partial",
   "theorems": [
    "Tm.Cli.C143_accepted_partial",
    "Tm.Cli.C143_rejected_partial",
    "Tm.Cli.C143_not_flag",
    "Tm.Cli.C143_not_glued"
   ],
   "note": "Command lines that follow the conventions are accepted. C143_accepted_partial: Missing: options have to be declared with a long name that is not null; an option without an argument, and one with an argument in the same word, has to be followed by another option or the end, not by a free argument; names begin with a letter or a digit. C143_rejected_partial: What is rejected does not say anything that is allowed. Missing: as for `C143_accepted_partial`. C143_not_flag: Free arguments are allowed, but one behind an option that takes no argument is an error: `-v input`. C143_not_glued: The same for an option with its argument in the same word: `-ofile input`."
  },
  {
   "property": "C144",
   "status": "proved",
   "theorems": [
    "Tm.Cli.C144_obeys"
   ],
   "note": "Delivered options are as declared"
  },
  {
   "property": "C145",
   "status": "partial",
   "theorems": [
    "Tm.Cli.C145_limit_partial",
    "Tm.Cli.C145_not_limit"
   ],
   "note": "Options are not delivered more often than allowed. C145_limit_partial: Missing: a maximum above one is only enforced if the option has a counter of its own, that was zero. C145_not_limit: Without a counter, a maximum above one has no effect: an option that may be given twice is delivered three times."
  },
  {
   "property": "C146",
   "status": "proved",
   "theorems": [
    "Tm.Cli.C146_outputs"
   ],
   "note": "Outputs and counters"
  },
  {
   "property": "C147",
   "status": "proved",
   "theorems": [
    "Tm.Cli.C147_validate"
   ],
   "note": "Required options are checked"
  },
  {
   "property": "C148",
   "status": "partial",
   "theorems": [
    "Tm.Cli.C148_make",
    "Tm.Cli.C148_safe_partial",
    "Tm.Cli.C148_not_null",
    "Tm.Cli.C148_not_empty",
    "Tm.Cli.C148_not_printed"
   ],
   "note": "Parsing is safe. C148_safe_partial: Missing: options with a long name that is null or with an empty short name, which `makeParser` accepts. C148_not_null: An option whose long name is null: any long option on the command line dereferences it. C148_not_empty: An option with a long name and a short name that is empty: any short option fails an assertion. C148_not_printed: Validating prints the long name of a required option that is missing, even if it is null."
  },
  {
   "property": "C149",
   "status": "proved",
   "theorems": [
    "Tm.Cli.C149_ends"
   ],
   "note": "Parsing ends"
  },
  {
   "property": "C150",
   "status": "proved",
   "theorems": [
    "Tm.Cli.C150_reported"
   ],
   "note": "Errors are reported once"
  },
  {
   "property": "C151",
   "status": "proved",
   "theorems": [
    "Tm.Cli.C151_uint",
    "Tm.Cli.C151_int",
    "Tm.Cli.C151_float"
   ],
   "note": "Validators accept exactly the numbers"
  },
  {
   "property": "C152",
   "status": "partial",
   "theorems": [
    "Tm.Util.C152_min_max",
    "Tm.Util.C152_minmax",
    "Tm.Util.C152_minmax_functor_partial",
    "Tm.Util.C152_not_functor"
   ],
   "note": "Minimum and maximum. C152_minmax_functor_partial: Missing: functors other than `operator<`, which is used as well. C152_not_functor: With the functor \"greater\", the greatest of 2, 1 and 2 (in the order of the functor, that is the smallest number) is not found."
  },
  {
   "property": "C153",
   "status": "proved",
   "theorems": [
    "Tm.Util.C153_median",
    "Tm.Util.C153_clamp"
   ],
   "note": "Median and clamp"
  },
  {
   "property": "C154",
   "status": "proved",
   "theorems": [
    "Tm.Util.C154_power_of_two",
    "Tm.Util.C154_alignment_offset",
    "Tm.Util.C154_alignment_rejected"
   ],
   "note": "Powers of two and alignment"
  },
  {
   "property": "C155",
   "status": "partial",
   "theorems": [
    "Tm.Util.C155_range_partial",
    "Tm.Util.C155_fair_partial",
    "Tm.Util.C155_not_wide",
    "Tm.Util.C155_not_narrow"
   ],
   "note": "Mapping to a range. C155_range_partial: Missing: ranges of 2^31 numbers or more, and 32 bit architectures. C155_fair_partial: \"Almost fairly\": of all values of type `int`, every number of the range gets 2^32 divided by the size of the range, or one more. Missing: as above. C155_not_wide: The range is that of all non-negative numbers and one negative one: its size overflows. C155_not_narrow: On 32 bit architectures, negative values are mapped below the range."
  },
  {
   "property": "C156",
   "status": "proved",
   "theorems": [
    "Tm.Util.C156_reversed",
    "Tm.Util.C156_twice"
   ],
   "note": "Byte order"
  },
  {
   "property": "C157",
   "status": "proved",
   "theorems": [
    "Tm.Util.C157_memory_zero",
    "Tm.Util.C157_fill"
   ],
   "note": "Testing and filling memory"
  },
  {
   "property": "C158",
   "status": "proved",
   "theorems": [
    "Tm.Util.C158_letters",
    "Tm.Util.C158_insensitive"
   ],
   "note": "Upper and lower case"
  },
  {
   "property": "C159",
   "status": "partial",
   "theorems": [
    "Tm.View.C159_push_back",
    "Tm.View.C159_try_push_back",
    "Tm.View.C159_pop_back_partial",
    "Tm.View.C159_not_pop_back",
    "Tm.View.C159_try_pop_back",
    "Tm.View.C159_access"
   ],
   "note": "Array views: the end of a view. C159_pop_back_partial: Missing: `pop_back` of an empty view. C159_not_pop_back: The assertion of `pop_back` does not see an empty view: its size becomes 2^64 - 1."
  },
  {
   "property": "C160",
   "status": "partial",
   "theorems": [
    "Tm.View.C160_insert_copies_partial",
    "Tm.View.C160_insert_range_partial",
    "Tm.View.C160_not_own"
   ],
   "note": "Array views: insertion. C160_insert_copies_partial: As many copies as there is room for are inserted. The value may be one of the view. Missing: 2^31 values or more. C160_insert_range_partial: A range is inserted if there is room for it. It may be anywhere except behind the position in the view. Missing: such ranges. C160_not_own: Values behind the position are moved before they are copied: to insert the second value in front of the first one inserts the first one."
  },
  {
   "property": "C161",
   "status": "partial",
   "theorems": [
    "Tm.View.C161_erase_partial",
    "Tm.View.C161_not_end",
    "Tm.View.C161_erase_range"
   ],
   "note": "Array views: erasure. C161_erase_partial: Missing: the end of the view as position. C161_not_end: The assertion of `erase` lets the end of the view pass, and \"-1\" values are moved."
  },
  {
   "property": "C162",
   "status": "partial",
   "theorems": [
    "Tm.View.C162_assign_range_partial",
    "Tm.View.C162_not_front",
    "Tm.View.C162_assign_copies",
    "Tm.View.C162_resize"
   ],
   "note": "Array views: assignment and size. C162_assign_range_partial: Missing: ranges that end where the view begins, if the view is not empty. C162_not_front: The range in front of the view is disjoint from it, but the assertion fails."
  },
  {
   "property": "C163",
   "status": "partial",
   "theorems": [
    "Tm.View.C163_bounds_partial",
    "Tm.View.C163_not_pop_back"
   ],
   "note": "Array views stay in their memory. C163_bounds_partial: Whatever is called, and with whatever arguments: as long as nothing fails, only the memory of the view is changed and its size does not exceed its capacity. Missing: `pop_back` of an empty view. C163_not_pop_back: After `pop_back` of an empty view."
  },
  {
   "property": "C164",
   "status": "proved",
   "theorems": [
    "Tm.View.C164_index",
    "Tm.View.C164_access"
   ],
   "note": "Grid views: indices and coordinates"
  },
  {
   "property": "C165",
   "status": "proved",
   "theorems": [
    "Tm.View.C165_range"
   ],
   "note": "Array views of ranges"
  },
  {
   "property": "C166",
   "status": "partial",
   "theorems": [
    "Tm.Dbl.C166_longest_exists",
    "Tm.Dbl.C166_none_partial",
    "Tm.Dbl.C166_size",
    "Tm.Dbl.C166_accepts_partial",
    "Tm.Dbl.C166_range",
    "Tm.Dbl.C166_not_dot"
   ],
   "note": "Floating point numbers: which text is read. C166_none_partial: Missing: a dot without digits (see `C166_not_dot`). A string that does not begin with a number is refused and nothing is written. C166_accepts_partial: Missing: numbers with more than 511 digits and exponents of 511 (see C170). The longest number is read, its size returned, and a number with its sign is written. C166_not_dot: A dot alone is no number, but it is accepted as one."
  },
  {
   "property": "C167",
   "status": "partial",
   "theorems": [
    "Tm.Dbl.C167_value_partial",
    "Tm.Dbl.C167_not_below_one",
    "Tm.Dbl.C167_not_nineteen_digits",
    "Tm.Dbl.C167_not_long_fraction",
    "Tm.Dbl.C167_not_zero"
   ],
   "note": "Floating point numbers: the number that is read. C167_value_partial: Missing: more than 18 digits in front of or behind the dot, or together if there is an exponent, great exponents, and numbers below one with a positive exponent (see the `C167_not_` theorems). The number that is written differs from the one that the text stands for by at most 10^-14 of it, and it has its sign. C167_not_below_one: \"0.5e1\" is five, but zero is written. C167_not_nineteen_digits: \"1000000000000000000\" is 10^18, but 10^17 is written. C167_not_long_fraction: \"0.1000000000000000000\" is a tenth, but a hundredth is written. C167_not_zero: \"0e400\" is zero, but it is read as no number at all."
  },
  {
   "property": "C168",
   "status": "proved",
   "theorems": [
    "Tm.Dbl.C168_integers"
   ],
   "note": "Floating point numbers: whole numbers are read exactly"
  },
  {
   "property": "C169",
   "status": "proved",
   "theorems": [
    "Tm.Dbl.C169_length",
    "Tm.Dbl.C169_null"
   ],
   "note": "Floating point numbers: text with a length"
  },
  {
   "property": "C170",
   "status": "partial",
   "theorems": [
    "Tm.Dbl.C170_safe_partial",
    "Tm.Dbl.C170_safe_null",
    "Tm.Dbl.C170_not_assertion",
    "Tm.Dbl.C170_not_table"
   ],
   "note": "Floating point numbers: reading is safe. C170_safe_partial: Missing: a dot without digits, more than 511 digits, and exponents of 511 (see the `C170_not_` theorems). Reading a string never reads outside of it, never overflows and fails no assertion. C170_not_assertion: The exponent 511 is accepted and then fails an assertion. C170_not_table: A fraction with 512 digits leads to a read behind the table of powers."
  },
  {
   "property": "C171",
   "status": "partial",
   "theorems": [
    "Tm.Dbl.C171_whole_partial",
    "Tm.Dbl.C171_not_odd",
    "Tm.Dbl.C171_not_great"
   ],
   "note": "Floating point numbers: whole numbers are printed exactly. C171_whole_partial: Missing: odd numbers from 2^52 on without decimals (see `C171_not_odd`), and numbers from 2^53 on (see `C171_not_great`). A whole number is printed as its digits, with a sign if it is negative, and with as many zeroes behind the dot as asked for. C171_not_odd: 2^52 + 1 without decimals: 2^52 + 2 is printed. C171_not_great: 2^63: another number is printed, which is 32 too small."
  },
  {
   "property": "C172",
   "status": "partial",
   "theorems": [
    "Tm.Dbl.C172_accuracy_partial",
    "Tm.Dbl.C172_rounded_partial",
    "Tm.Dbl.C172_not_carry",
    "Tm.Dbl.C172_not_just_below",
    "Tm.Dbl.C172_not_below_one"
   ],
   "note": "Floating point numbers: accuracy of what is printed. C172_accuracy_partial: Missing: numbers from 2^53 on, and numbers that are just below a whole number (see the `C172_not_` theorems). With at least one decimal, a number is printed as decimal number that differs from it by at most 0.52 units of the last decimal; its whole part is that of the number. C172_rounded_partial: Missing: numbers from 2^50 on, and numbers that are more than 3/4 above the next whole number (see the `C172_not_` theorems). Without decimals, the number is printed as the next whole number below or above, which differs by at most 0.52; a half is rounded up. C172_not_carry: The double next to 0.9999 with two decimals is printed as 1.100. C172_not_just_below: A number just below 2 is printed as a number just below 3. C172_not_below_one: The greatest double below 1 is printed as 2 if there are no decimals."
  },
  {
   "property": "C173",
   "status": "partial",
   "theorems": [
    "Tm.Dbl.C173_room_partial",
    "Tm.Dbl.C173_not_great"
   ],
   "note": "Floating point numbers: room when printing. C173_room_partial: Missing: numbers from 2^52 on (see `C173_not_great`). Whatever the options and the room are, printing gives a decimal number of at most 33 chars that does not depend on the room: if there is room for it, this is what is written, and if not, an error is returned. Chars outside of the room are never touched. C173_not_great: Every finite number from 2^64 on: the behaviour of printing it is undefined."
  },
  {
   "property": "C174",
   "status": "proved",
   "theorems": [
    "Tm.Dbl.C174_infinity",
    "Tm.Dbl.C174_nan"
   ],
   "note": "Floating point numbers: infinities and NaN"
  },
  {
   "property": "C175",
   "status": "partial",
   "theorems": [
    "Tm.Dbl.C175_whole_partial",
    "Tm.Dbl.C175_value_partial"
   ],
   "note": "Floating point numbers: reading what was printed. C175_whole_partial: Missing: whole numbers from 2^53 on (see `C171_not_great`). A whole number that is printed as short as possible is read as the same number: the whole text is read, and the number that comes out is the one that was printed. (The sign of a zero is kept only if the caller asks for it.) C175_value_partial: Missing: as for C172. A number that is printed with decimals is read as a number that differs by at most 0.52 units of the last decimal and 10^-14 of the printed number."
  },
  {
   "property": "C176",
   "status": "partial",
   "theorems": [
    "Tm.Fmt.C176_snprint_partial",
    "Tm.Fmt.C176_not_escaped_brace",
    "Tm.Fmt.C176_not_string_width",
    "Tm.Fmt.C176_not_bool_width",
    "Tm.Fmt.C176_not_least",
    "Tm.Fmt.C176_not_two_signs"
   ],
   "note": "Formatting: the text is what the format string says. C176_snprint_partial: All of the text is in the buffer, with a zero byte behind it; the bytes behind that keep their values. Restricted by `AllFine` and `BracesFine` (see `Spec.lean`) and to texts shorter than 2^31 bytes. C176_not_escaped_brace: \"}}\" before a placeholder: the code looks for the brace that closes the placeholder from the start of the text on, finds the first one of \"}}\" and reads behind the format string. C176_not_string_width: \"ab\" in a field of 5 chars: only the blanks are in the result. C176_not_bool_width: A truth value in a field that is wider than its word: chars get lost, or an assertion fails. C176_not_least: The least `int`: its negation overflows. C176_not_two_signs: Two signs for a negative zero."
  },
  {
   "property": "C177",
   "status": "partial",
   "theorems": [
    "Tm.Fmt.C177_size_partial",
    "Tm.Fmt.C177_twice_partial",
    "Tm.Fmt.C177_not_bool_width"
   ],
   "note": "Formatting: the result is the necessary size. C177_size_partial: The result is the size of the whole text, whatever the room. If it is the room, the last char made way for the zero byte. Restricted as `C176_snprint_partial`. C177_twice_partial: Without a buffer the result is the size, too: print twice, first to find out how much memory to allocate. C177_not_bool_width: A wide field for a truth value: the result (4) is not the number of chars in the field (6)."
  },
  {
   "property": "C178",
   "status": "partial",
   "theorems": [
    "Tm.Fmt.C178_inside_partial",
    "Tm.Fmt.C178_not_inside"
   ],
   "note": "Formatting: only the buffer is written. C178_inside_partial: Whatever the room, the bytes behind the buffer keep their values. Restricted as `C176_snprint_partial`. C178_not_inside: -1.5 in a field of 12 chars, with 10 chars of room: 2 bytes behind the buffer are overwritten, and the result is right."
  },
  {
   "property": "C179",
   "status": "partial",
   "theorems": [
    "Tm.Fmt.C179_closing_partial",
    "Tm.Fmt.C179_opening_partial",
    "Tm.Fmt.C179_index_partial",
    "Tm.Fmt.C179_not_terminated"
   ],
   "note": "Formatting: malformed format strings are rejected. C179_closing_partial: A closing brace that stands alone. C179_opening_partial: An opening brace that is not closed, in a format string that ends with a zero byte. C179_index_partial: A placeholder for an argument that is not there, because of its index or because there are too many placeholders. C179_not_terminated: \"{\" without a zero byte behind it: the byte behind the format string is read."
  },
  {
   "property": "C180",
   "status": "partial",
   "theorems": [
    "Tm.Fmt.C180_file_partial",
    "Tm.Fmt.C180_string_partial",
    "Tm.Fmt.C180_not_string_width"
   ],
   "note": "Formatting: files and strings get all of the text. C180_file_partial: All of the text is given to the file, or the memory is refused, ENOMEM is returned and a part of the text from its start on is given to the file. Restricted by `AllFine` and `BracesFine`. C180_string_partial: The string is the text, or empty if the memory is refused. Restricted by `AllFine` and `BracesFine`. C180_not_string_width: \"ab\" in a field of 5 chars."
  },
  {
   "property": "C181",
   "status": "partial",
   "theorems": [
    "Tm.Fmt.C181_unsigned",
    "Tm.Fmt.C181_signed_partial",
    "Tm.Fmt.C181_not_least"
   ],
   "note": "Formatting: integers can be read back. C181_signed_partial: The same for signed numbers. Missing: the least numbers. C181_not_least: The least `int` cannot be printed."
  },
  {
   "property": "C182",
   "status": "partial",
   "theorems": [
    "Tm.Fmt.C182_accuracy_partial",
    "Tm.Fmt.C182_not_scientific",
    "Tm.Fmt.C182_not_hexadecimal",
    "Tm.Fmt.C182_not_great"
   ],
   "note": "Formatting: numbers with fractions. C182_accuracy_partial: What is printed for a finite number without width: its sign, digits and decimals, accurate as `print_double` is (C172). Missing: numbers from 2^52 on, numbers just below a whole number, no decimals, and fields that are wider than the number. C182_not_scientific: The specifier for scientific notation has no effect. C182_not_hexadecimal: The specifier for hexadecimal notation has no effect, apart from the prefix. C182_not_great: From 2^64 on nothing is printed: the conversion to an integer overflows."
  },
  {
   "property": "C183",
   "status": "proved",
   "theorems": [
    "Tm.Fmt.C183_specifier"
   ],
   "note": "Formatting: format specifiers are read as documented"
  },
  {
   "property": "C184",
   "status": "proved",
   "theorems": [
    "Tm.Poly.C184_limit",
    "Tm.Poly.C184_inside"
   ],
   "note": "Triangulation: ends and stays within the arrays"
  },
  {
   "property": "C185",
   "status": "proved",
   "theorems": [
    "Tm.Poly.C185_cuts",
    "Tm.Poly.C185_corners",
    "Tm.Poly.C185_once"
   ],
   "note": "Triangulation: triangles are cut off one after the other"
  },
  {
   "property": "C186",
   "status": "proved",
   "theorems": [
    "Tm.Poly.C186_area",
    "Tm.Poly.C186_sides"
   ],
   "note": "Triangulation: a complete one covers the polygon"
  },
  {
   "property": "C187",
   "status": "proved",
   "theorems": [
    "Tm.Poly.C187_float",
    "Tm.Poly.C187_clockwise"
   ],
   "note": "Triangulation: triangles have clockwise order"
  },
  {
   "property": "C188",
   "status": "proved",
   "theorems": [
    "Tm.Poly.C188_empty"
   ],
   "note": "Triangulation: triangles contain no other corners"
  },
  {
   "property": "C189",
   "status": "partial",
   "theorems": [
    "Tm.Poly.C189_not_flat_float",
    "Tm.Poly.C189_convex_partial",
    "Tm.Poly.C189_not_flat"
   ],
   "note": "Triangulation: simple polygons are triangulated completely. C189_not_flat_float: C189 does not hold for `float` either: the triangle with an additional corner in the middle of a side, as in `C189_not_flat`. C189_convex_partial: C189: in exact arithmetic strictly convex polygons are triangulated completely. Missing are polygons that are not convex; those with three corners on a line are not triangulated completely, see `C189_not_flat`. C189_not_flat: C189 does not hold for a triangle with an additional corner in the middle of a side: only one triangle is written, and it has no area. (The corner is cut off with the flat triangle, and afterwards it is on the border of the triangle that is left. All numbers that are computed are exact as `float`.)"
  },
  {
   "property": "C190",
   "status": "proved",
   "theorems": [
    "Tm.Poly.C190_float",
    "Tm.Poly.C190_sign",
    "Tm.Poly.C190_inside"
   ],
   "note": "Polygons: clockwise means not negative area"
  },
  {
   "property": "C191",
   "status": "proved",
   "theorems": [
    "Tm.Res.C191_defined",
    "Tm.Res.C191_one_owner",
    "Tm.Res.C191_no_leak"
   ],
   "note": "Resource pointers: one owner, freed once"
  },
  {
   "property": "C192",
   "status": "partial",
   "theorems": [
    "Tm.Res.C192_contents_partial",
    "Tm.Res.C192_not_result"
   ],
   "note": "Resource pointers: true means owning. C192_contents_partial: C192, `tmu_contents`: a variable is true exactly if it is responsible for a block. Missing are the types with an error code, for which it does not hold, see `C192_not_result`. C192_not_result: C192 does not hold for the types with an error code: after the resource was released (or moved away), the variable is still true, since the error code zero means no error."
  },
  {
   "property": "C193",
   "status": "proved",
   "theorems": [
    "Tm.Bez.C193_grid"
   ],
   "note": "Bezier curves: computed points are on the curve"
  },
  {
   "property": "C194",
   "status": "partial",
   "theorems": [
    "Tm.Bez.C194_grid_partial",
    "Tm.Bez.C194_not_between",
    "Tm.Bez.C194_not_end"
   ],
   "note": "Bezier curves: points between the computed ones. C194_grid_partial: C194, at the computed points: the evaluated point is the point of the curve, so it is on the line between the computed points around it. Missing are all other parameters, for which it does not hold, see `C194_not_between`. C194_not_between: C194 does not hold: the interpolation between the computed points goes in the wrong direction. On a straight line from (0, 0) to (1, 1) with ten steps, the parameter 1/100 gives (19/100, 19/100). C194_not_end: C194 does not hold behind the end: a parameter greater than 1 gives a point that is one step behind the end of the curve."
  },
  {
   "property": "C195",
   "status": "proved",
   "theorems": [
    "Tm.Bez.C195_interpolates",
    "Tm.Bez.C195_ends",
    "Tm.Bez.C195_beyond"
   ],
   "note": "Bezier curves: easing from x"
  },
  {
   "property": "C196",
   "status": "proved",
   "theorems": [
    "Tm.Poly.C196_prepared"
   ],
   "note": "Clipping: prepared polygons"
  },
  {
   "property": "C197",
   "status": "partial",
   "theorems": [
    "Tm.Poly.C197_exact_partial",
    "Tm.Poly.C197_not_ending",
    "Tm.Poly.C197_not_all"
   ],
   "note": "Clipping: intersections. C197_exact_partial: C197, what is proved of it: if sides that have a common point are not parallel and the point is not close to a corner, then the search ends, no corner is moved, and the crossings are exactly the common points of sides. (Exact arithmetic. Missing: rounding, and other positions, for which there are counterexamples below.) C197_not_ending: C197 does not hold for two triangles with coordinates of about 10000, one of which has a corner on a side of the other one: the corner is moved by less than the distance of two `float` numbers, so it stays where it is, and the search never ends. C197_not_all: C197 does not hold for two overlapping squares with sides of length 1/1000: no crossing is found, because the product of the directions of two sides is compared with 0.000001 in a way that excludes only this number."
  },
  {
   "property": "C198",
   "status": "partial",
   "theorems": [
    "Tm.Poly.C198_alternate",
    "Tm.Poly.C198_inside",
    "Tm.Poly.C198_exits_partial"
   ],
   "note": "Clipping: exits and entries. C198_exits_partial: C198, what is proved of it: if sides that have a common point are not parallel and the point is not close to a corner, then a piece of a polygon between two vertices in a row is inside of the other polygon, with all of its points, exactly if its number of crossings before says so: after an exit it is outside, after an entry inside. (Exact arithmetic. Missing: rounding and other positions.)"
  },
  {
   "property": "C199",
   "status": "partial",
   "theorems": [
    "Tm.Poly.C199_emitted_partial",
    "Tm.Poly.C199_one_partial",
    "Tm.Poly.C199_even"
   ],
   "note": "Clipping: emitted pieces. C199_emitted_partial: C199, what is proved of it: if the number of crossings is even and not 0, and the exits and entries come in turn, then polygons are emitted that consist of exactly the pieces that are inside. (Missing: an odd number, which is possible only by rounding or if corners are on sides: see C199_even.) C199_one_partial: C199, what is proved of it: with two crossings there is one polygon, and the simpler function writes the same vertices and returns their number. (Missing: other numbers of crossings.)"
  },
  {
   "property": "C200",
   "status": "proved",
   "theorems": [
    "Tm.Poly.C200_whole"
   ],
   "note": "Clipping: no intersections"
  },
  {
   "property": "C201",
   "status": "partial",
   "theorems": [
    "Tm.Poly.C201_clipped_partial"
   ],
   "note": "Clipping: all together. C201_clipped_partial: C201, what is proved of it: two polygons are clipped. If sides that have a common point are not parallel and the point is not close to a corner, and if the memory suffices, then polygons are emitted that consist of exactly the pieces of each polygon that are inside of the other one, by the even-odd rule. If no sides have a common point then one of the polygons is emitted if its vertex 0 is inside of the other, and nothing otherwise. (Exact arithmetic. Missing: rounding and other positions.)"
  },
  {
   "property": "C202",
   "status": "partial",
   "theorems": [
    "Tm.Alloc.C202_blocks_partial",
    "Tm.Alloc.C202_not_first"
   ],
   "note": "MonotonicAllocator: blocks. C202_blocks_partial: C202, what is proved of it: if the memory for the array of stack allocators happens to be zero, then all blocks that were given are aligned, have the size that was asked for, lie in pages that were mapped, and no two of them overlap. (Missing: other memory, see `C202_not_first`, and sizes and alignments of 2^62 and more, with which additions overflow.) C202_not_first: C202 does not hold if the memory that `TM_MALLOC` gives is not zero: the first stack allocator is whatever was in it, and the first block is given from memory that was never mapped."
  },
  {
   "property": "C203",
   "status": "partial",
   "theorems": [
    "Tm.Alloc.C203_met_partial",
    "Tm.Alloc.C203_not_zero"
   ],
   "note": "MonotonicAllocator: requests are met. C203_met_partial: C203, what is proved of it: a request for at least one byte, with an alignment that divides the granularity, is met whenever the system gives the memory that is asked for. (Missing: the same as for C202; the number of stack allocators must be less than 2^31 - 1.) C203_not_zero: C203 does not hold for a request of 0 bytes: a page is mapped for it, the rest of the page before is not used any more, and no block is given."
  },
  {
   "property": "C204",
   "status": "partial",
   "theorems": [
    "Tm.Alloc.C204_array_partial",
    "Tm.Alloc.C204_not_pages"
   ],
   "note": "MonotonicAllocator: memory is given back. C204_array_partial: C204, what is proved of it: the array of stack allocators is given back exactly once, by the allocator that has it, unless it was asked to leak. (Missing: the pages, see `C204_not_pages`.) C204_not_pages: C204 does not hold for the pages: an allocator that has mapped pages and was not asked to leak gives none of them back."
  },
  {
   "property": "C205",
   "status": "partial",
   "theorems": [
    "Tm.Alloc.C205_owns_partial"
   ],
   "note": "MonotonicAllocator: owns. C205_owns_partial: C205, what is proved of it: addresses in blocks that were given are owned, and addresses outside of the mapped pages are not. (Missing: the same as for C202. Other addresses in the mapped pages must not be asked for, there is an assertion.)"
  },
  {
   "property": "C206",
   "status": "proved",
   "theorems": [
    "Tm.Uni.C206_total",
    "Tm.Uni.C206_refused"
   ],
   "note": "Unicode data: every code point has an entry"
  },
  {
   "property": "C207",
   "status": "proved",
   "theorems": [
    "Tm.Uni.C207_simple",
    "Tm.Uni.C207_full"
   ],
   "note": "Unicode data: case folding"
  },
  {
   "property": "C208",
   "status": "partial",
   "theorems": [
    "Tm.Uni.C208_ascii_partial",
    "Tm.Uni.C208_not_letters",
    "Tm.Uni.C208_not_whitespace"
   ],
   "note": "Unicode data: classification. C208_ascii_partial: The characters of ASCII are classified as Unicode says. Missing: white space, and all other characters, see `C208_not_letters` and `C208_not_whitespace`. C208_not_letters: The letters of scripts whose code points are listed as ranges in the Unicode database (Chinese, Korean, Tangut; 110468 code points) are no letters for `tmu_is_letter`: of each range, only the first and the last one are. U+4E2D and U+AC00 + 1 are \"control\" characters. C208_not_whitespace: Tabs and line ends are no white space for `tmu_is_whitespace`, nor is the no-break space; the space is."
  },
  {
   "property": "C209",
   "status": "proved",
   "theorems": [
    "Tm.Uni.C209_simple",
    "Tm.Uni.C209_full",
    "Tm.Uni.C209_twice"
   ],
   "note": "Case folding of texts"
  },
  {
   "property": "C210",
   "status": "partial",
   "theorems": [
    "Tm.Uni.C210_every_string",
    "Tm.Uni.C210_reported_partial",
    "Tm.Uni.C210_not_overlong"
   ],
   "note": "Case folding of malformed texts. C210_reported_partial: A text that is broken off, or in which a byte is at a place where a code point must begin, is reported; what is before it is folded. Missing: overlong forms, and second bytes that are no continuation bytes, are accepted, see `C210_not_overlong`. C210_not_overlong: Bytes that no text has are accepted: an overlong form of \"A\" is folded to \"a\"."
  },
  {
   "property": "C211",
   "status": "partial",
   "theorems": [
    "Tm.Uni.C211_simple_partial",
    "Tm.Uni.C211_full_partial",
    "Tm.Uni.C211_not_simple",
    "Tm.Uni.C211_not_full",
    "Tm.Uni.C211_not_example"
   ],
   "note": "Equality that ignores the case. C211_simple_partial: `tmu_utf8_equals_ignore_case_simple` says whether the folded texts are equal. Missing: if the first text has exactly one code point more than the second one, and is equal up to there, then it is said to be equal, see `C211_not_simple`. C211_full_partial: `tmu_utf8_equals_ignore_case` says whether the folded texts are equal. Missing: as in `C211_simple_partial`, see `C211_not_full`. C211_not_simple: Whenever the first text has exactly one code point more than the second one, it is said to be equal. C211_not_full: The same for the function with full folding. C211_not_example: \"ab\" is said to be equal to \"a\", \"a\" to be equal to \"\", but not the other way round."
  },
  {
   "property": "C212",
   "status": "partial",
   "theorems": [
    "Tm.Uni.C212_simple_partial",
    "Tm.Uni.C212_full_partial",
    "Tm.Uni.C212_not_simple",
    "Tm.Uni.C212_not_full",
    "Tm.Uni.C212_not_example"
   ],
   "note": "Order that ignores the case. C212_simple_partial: `tmu_utf8_compare_ignore_case_simple` is the lexicographic order of the folded texts: -1, 0 or 1. Missing: if the first text has exactly one code point more than the second one, and is equal up to there, then the result is 0, see `C212_not_simple`. C212_full_partial: `tmu_utf8_compare_ignore_case` is the lexicographic order of the folded texts: -1, 0 or 1. Missing: as in `C212_simple_partial`, see `C212_not_full`. C212_not_simple: Whenever the first text has exactly one code point more than the second one, which is not empty, the result is 0; with the arguments swapped, it is -1: sorting with this function depends on the order in which it is asked. C212_not_full: The same for the function with full folding. C212_not_example: \"ab\" compared with \"a\"."
  },
  {
   "property": "C213",
   "status": "partial",
   "theorems": [
    "Tm.Uni.C213_simple_partial",
    "Tm.Uni.C213_full_partial",
    "Tm.Uni.C213_not_large",
    "Tm.Uni.C213_not_letter",
    "Tm.Uni.C213_not_longer",
    "Tm.Uni.C213_not_same",
    "Tm.Uni.C213_not_ending"
   ],
   "note": "Order for people. C213_simple_partial: `tmu_utf8_human_compare_simple` orders texts as people do: numbers by their value, and other characters by their folding. Missing: numbers of 2146369537 and more and U+10FFFF (see `C213_not_large` and `C213_not_letter`), a first text with one token more than the second one (see `C213_not_longer`), and texts at the same address, which are ordered by their length (see `C213_not_same`). C213_full_partial: `tmu_utf8_human_compare` orders texts as people do: numbers by their value, and other characters by their folding. Missing: as in `C213_simple_partial`. C213_not_large: \"3000000000\" is before \"1\", \"4294967297\" is the same as \"1\", and to compare \"2147483648\" with \"1\" overflows an `int`. C213_not_letter: U+10FFFF is the same as the number 0. C213_not_longer: \"b1\" compared with \"b\" is 0, but \"b\" compared with \"b1\" is -1. C213_not_same: \"0\" and \"00\" are the same number; but if both begin at the same address, \"0\" is before \"00\". C213_not_ending: To compare two texts that both have an overlong form of a digit at the same place never ends: no number of rounds is enough."
  },
  {
   "property": "C214",
   "status": "proved",
   "theorems": [
    "Tm.File.C214_memory",
    "Tm.File.C214_exact",
    "Tm.File.C214_result"
   ],
   "note": "Reading a file"
  },
  {
   "property": "C215",
   "status": "partial",
   "theorems": [
    "Tm.File.C215_text_partial",
    "Tm.File.C215_refused",
    "Tm.File.C215_not_leaked",
    "Tm.File.C215_not_freed"
   ],
   "note": "Reading a file as UTF-8. C215_text_partial: Part of C215: a file of UTF-8, with or without a byte order mark, is read as its text without the mark, terminated, when nothing goes wrong. What was allocated is the block that is returned. Missing: what happens when calls or allocations fail; other encodings. C215_not_leaked: C215 fails when reading fails after something was read: an error is returned without contents, and the block with what was read is lost. C215_not_freed: C215 fails when there is no memory for the terminator: the block with the file is freed twice."
  },
  {
   "property": "C216",
   "status": "partial",
   "theorems": [
    "Tm.File.C216_memory",
    "Tm.File.C216_prefix",
    "Tm.File.C216_exact_partial",
    "Tm.File.C216_not_written",
    "Tm.File.C216_succeeds"
   ],
   "note": "Writing a file. C216_exact_partial: Part of C216: if writing succeeds and no call failed, the file has exactly the data in it. Missing: this is not so when closing the file fails. C216_not_written: C216 fails: the data wait in the buffer of the stream, writing them out fails when the file is closed, and nobody looks. The result says that all bytes were written and that there was no error; the file is empty, and what was in it before is gone."
  },
  {
   "property": "C217",
   "status": "partial",
   "theorems": [
    "Tm.File.C217_kept_partial",
    "Tm.File.C217_not_raced"
   ],
   "note": "Not overwriting. C217_kept_partial: Part of C217: without `tmu_overwrite` a file that is there is kept, whichever calls fail, and the function reports an error. Missing: other programs. A call that fails must not say that there is no such file. C217_not_raced: C217 fails: another program creates the file between the check and the opening, and it is overwritten."
  },
  {
   "property": "C218",
   "status": "partial",
   "theorems": [
    "Tm.File.C218_not_marked",
    "Tm.File.C218_bytes_partial"
   ],
   "note": "Writing a byte order mark. C218_not_marked: C218 fails: `tmu_write_file_as_utf8`, which asks for a byte order mark, writes the same bytes as `tmu_write_file`, for all contents. No mark is written. C218_bytes_partial: Part of C218: if nothing goes wrong the bytes of the text are in the file. Missing: the byte order mark before them."
  },
  {
   "property": "C219",
   "status": "proved",
   "theorems": [
    "Tm.File.C219_atomic",
    "Tm.File.C219_plain_torn"
   ],
   "note": "Atomic writes"
  },
  {
   "property": "C220",
   "status": "partial",
   "theorems": [
    "Tm.File.C220_memory",
    "Tm.File.C220_created_partial",
    "Tm.File.C220_not_absolute",
    "Tm.File.C220_not_file",
    "Tm.File.C220_not_home"
   ],
   "note": "Creating directories. C220_created_partial: Part of C220: if nothing goes wrong, a directory given by a path that is not absolute is created, with all directories on the way, and nothing else is changed. Missing: absolute paths, `~/`, and paths on which there is a file. C220_not_absolute: C220 fails for every absolute path of something that is not there yet: the first attempt is to create the directory with the empty name, and the error of that is returned. Nothing is created. C220_not_file: C220 fails when there is a file where the directory should be: the result says that all is well. C220_not_home: C220 fails for `~/`, which is taken for the home directory here and for a directory with that name everywhere else."
  },
  {
   "property": "C221",
   "status": "partial",
   "theorems": [
    "Tm.File.C221_written_partial",
    "Tm.File.C221_not_tilde"
   ],
   "note": "Creating directories when writing. C221_written_partial: Part of C221: with `tmu_create_directory_tree`, a file in directories some of which do not exist is written and the directories are created, if nothing goes wrong. The name has none of the characters `/`, `\\`, `:` and `~` in it. Missing: absolute paths, and names with these characters. C221_not_tilde: C221 fails: `~` is a character a name may have, as the names of backups do. Writing the file `x~`, which is in the current directory, also creates the directory `x`, which nobody asked for."
  },
  {
   "property": "C222",
   "status": "proved",
   "theorems": [
    "Tm.File.C222_file",
    "Tm.File.C222_directory",
    "Tm.File.C222_failed"
   ],
   "note": "Existence of files and directories"
  },
  {
   "property": "C223",
   "status": "partial",
   "theorems": [
    "Tm.File.C223_deleted",
    "Tm.File.C223_succeeds",
    "Tm.File.C223_not_directory",
    "Tm.File.C223_file_partial",
    "Tm.File.C223_directory"
   ],
   "note": "Deleting. C223_not_directory: C223 fails: `tmu_delete_file` also deletes a directory, if it is empty. C223_file_partial: Part of C223: a file is deleted by `tmu_delete_file` and nothing that is not a file, if there is no empty directory. Missing: empty directories."
  },
  {
   "property": "C224",
   "status": "partial",
   "theorems": [
    "Tm.File.C224_memory",
    "Tm.File.C224_moved",
    "Tm.File.C224_succeeds",
    "Tm.File.C224_guarded",
    "Tm.File.C224_kept_partial",
    "Tm.File.C224_not_kept",
    "Tm.File.C224_not_same"
   ],
   "note": "Renaming. C224_kept_partial: Part of C224: if renaming without `tmu_overwrite` does not succeed, nothing is changed, apart from directories it was asked to create. Missing: with `tmu_overwrite` this does not hold. C224_not_kept: C224 fails with `tmu_overwrite`: when `rename` fails for whatever reason, the file with the other name is deleted before the next attempt. If that fails too, an error is reported and the file is gone. C224_not_same: C224 fails with `tmu_overwrite` when both paths lead to the same file: if `rename` fails once, the file is deleted and nothing is left of it."
  },
  {
   "property": "C225",
   "status": "partial",
   "theorems": [
    "Tm.File.C225_path_partial",
    "Tm.File.C225_not_room"
   ],
   "note": "The current directory. C225_path_partial: Part of C225: if room for at least one more character was asked for, or the length of the path is not one less than a multiple of 200, the function is defined whatever the operating system and the allocator do; it changes nothing, and giving back the contents leaves the blocks there were before. If it succeeds, the contents are the path of the current directory with a slash at the end, terminated, and as many characters as were asked for fit behind it. Missing: the other lengths. C225_not_room: C225 fails: when no more room is asked for and the path has 199 characters, the path and its terminator fill the buffer, and there is no room for the slash although the function made sure that there is room for \"a trailing '/'\". An assertion fails; without assertions the terminator is written behind the buffer."
  },
  {
   "property": "C226",
   "status": "partial",
   "theorems": [
    "Tm.File.C226_filename_partial",
    "Tm.File.C226_not_failed",
    "Tm.File.C226_directory_partial"
   ],
   "note": "The path of the program. C226_filename_partial: Part of C226: if the first reading of the link does not fail, asking for the path of the program is defined whatever else the operating system and the allocator do; nothing is changed, and what is returned is all that was allocated. If it succeeds, the contents are the whole path, terminated, however long it is. Missing: that the first reading fails. C226_not_failed: C226 fails: if the first reading of the link fails, the function frees an array on its stack. C226_directory_partial: Part of C226: the directory of the program is its path up to the last slash, with the slash, and terminated. Missing: as above."
  },
  {
   "property": "C227",
   "status": "partial",
   "theorems": [
    "Tm.File.C227_names",
    "Tm.File.C227_succeeds",
    "Tm.File.C227_types_partial",
    "Tm.File.C227_not_types"
   ],
   "note": "Listing a directory. C227_types_partial: Part of C227: if the operating system says of everything in a directory whether it is a directory (`DT_DIR` is 4) or a regular file (`DT_REG` is 8), the listing tells the files from the directories. Missing: the other types. C227_not_types: C227 fails for other types: a socket (`DT_SOCK` is 12) is listed as a directory, and what has no known type, which may be a directory, as a file."
  },
  {
   "property": "C228",
   "status": "partial",
   "theorems": [
    "Tm.File.C228_order_partial",
    "Tm.File.C228_not_order"
   ],
   "note": "Comparing file times. C228_order_partial: Part of C228: times that are less than 2^63 apart are compared as they should be. Missing: times farther apart. C228_not_order: C228 fails for times far apart: they are unsigned, but their difference is taken as signed."
  },
  {
   "property": "C229",
   "status": "proved",
   "theorems": [
    "Tm.File.C229_view",
    "Tm.File.C229_views"
   ],
   "note": "Paths that are not terminated"
  },
  {
   "property": "C230",
   "status": "partial",
   "theorems": [
    "Tm.File.C230_text_partial",
    "Tm.File.C230_not_null"
   ],
   "note": "The command line as UTF-8. C230_text_partial: Part of C230: the arguments, which have no zeros in them since they are terminated, become UTF-8. Whatever the allocator does, the function is defined. If it succeeds, there is a pointer to a terminated string for every argument, and the string is the UTF-8 encoding of the text of the argument, and one more pointer. If an argument is not well-formed UTF-16 the result is `TM_EINVAL`, and otherwise it fails only for want of memory. Destroying the result gives back what was allocated. Missing: the last pointer is not null, as the documentation says, but leads to an empty string. C230_not_null: C230 fails for every command line: `args[args_count]` is not null, although the documentation guarantees it."
  },
  {
   "property": "C231",
   "status": "partial",
   "theorems": [
    "Tm.File.C231_bytes_partial",
    "Tm.File.C231_text_partial",
    "Tm.File.C231_not_marked"
   ],
   "note": "What is written is read back. C231_bytes_partial: Part of C231: the bytes that were written are read back, in any later state in which the files are as they were after the writing; reading succeeds when nothing goes wrong. Missing: writing in which a call fails, see `C216_not_written`. C231_text_partial: Part of C231: a text that does not begin with a byte order mark is read back as it was written by `tmu_write_file_as_utf8`. Missing: texts that begin with a mark, the empty text, and writing or reading in which a call fails. C231_not_marked: C231 fails for a text that begins with U+FEFF: it is read back without it."
  },
  {
   "property": "C232",
   "status": "proved",
   "theorems": [
    "Tm.Json.C232_same"
   ],
   "note": "The extended tokenizer without extensions"
  },
  {
   "property": "C233",
   "status": "partial",
   "theorems": [
    "Tm.Json.C233_content_partial",
    "Tm.Json.C233_not_delimiter",
    "Tm.Json.C233_not_inside",
    "Tm.Json.C233_not_refused"
   ],
   "note": "C++ raw strings. C233_content_partial: C233, partial: missing are raw strings with a delimiter. A raw string with an empty one gives its content, whatever it is, without replacing anything. C233_not_delimiter: C233 fails: a raw string with a delimiter is refused. C233_not_inside: C233 fails: text that ends inside of a delimiter is read past its end. C233_not_refused: C233 fails: in an array a raw string is accepted behind a value without a comma, where no value may be."
  },
  {
   "property": "C234",
   "status": "partial",
   "theorems": [
    "Tm.Json.C234_content_partial",
    "Tm.Json.C234_escapes_partial",
    "Tm.Json.C234_not_raw",
    "Tm.Json.C234_not_both",
    "Tm.Json.C234_not_refused"
   ],
   "note": "Python raw strings. C234_content_partial: C234, partial: missing are contents with backslashes and both kinds of raw strings at once. A raw string gives its content. C234_escapes_partial: C234, partial: a raw string in `\"` with the escapes of JSON gives its content with the escapes as they are. C234_not_raw: C234 fails: a raw string with a backslash that is no escape of JSON is refused. C234_not_both: C234 fails: if C++ raw strings are allowed as well, a short raw string at the end of the text is read past the end. C234_not_refused: C234 fails: in an array a raw string is accepted behind a value without a comma."
  },
  {
   "property": "C235",
   "status": "proved",
   "theorems": [
    "Tm.Json.C235_name",
    "Tm.Json.C235_only"
   ],
   "note": "Names without quotation marks"
  },
  {
   "property": "C236",
   "status": "partial",
   "theorems": [
    "Tm.Json.C236_token_partial",
    "Tm.Json.C236_not_three",
    "Tm.Json.C236_not_inside",
    "Tm.Json.C236_copy_partial",
    "Tm.Json.C236_not_unescaped",
    "Tm.Json.C236_not_room"
   ],
   "note": "Strings in several parts. C236_token_partial: C236, partial: missing are strings whose third or later part has whitespace before it, strings in several parts at the end of the text and parts with escapes. A string in several parts is one value; its text goes from the first quotation mark to the last, which it is without. C236_not_three: C236 fails: if there is whitespace before the third part, it is not taken. C236_not_inside: C236 fails: behind a string in several parts at the end of the text the reader reads past the end. C236_copy_partial: C236, partial: missing are parts with escapes and buffers that are not twice as large as the result. Of a string in several parts `jsonCopyConcatenatedString` gives the parts, one behind the other. C236_not_unescaped: C236 fails: the last part is not unescaped. C236_not_room: C236 fails: in a buffer as large as the string, which is what `jsonAllocateConcatenatedString` gives, the terminator is written past the end."
  },
  {
   "property": "C237",
   "status": "proved",
   "theorems": [
    "Tm.Json.C237_floats",
    "Tm.Json.C237_keywords"
   ],
   "note": "Keywords in any case and numbers that are not finite"
  },
  {
   "property": "C238",
   "status": "partial",
   "theorems": [
    "Tm.Json.C238_block_partial",
    "Tm.Json.C238_not_closed",
    "Tm.Json.C238_python",
    "Tm.Json.C238_python_end"
   ],
   "note": "Comments of the extended tokenizer. C238_block_partial: C238, partial: missing is that a comment that is not closed is refused. A block comment is read as one token, whatever is in it; what follows is read as if it were not there. C238_not_closed: C238 fails: a block comment that is not closed is accepted if there is no `*` in it, and what is in it is read as JSON."
  },
  {
   "property": "C239",
   "status": "proved",
   "theorems": [
    "Tm.Json.C239_ends",
    "Tm.Json.C239_takes"
   ],
   "note": "Reading extended tokens ends"
  },
  {
   "property": "C240",
   "status": "proved",
   "theorems": [
    "Tm.Xml.C240_same"
   ],
   "note": "Failing allocations are reported"
  },
  {
   "property": "C241",
   "status": "proved",
   "theorems": [
    "Tm.Hash.Owned.C241_memory"
   ],
   "note": "Maps with string keys own their memory"
  },
  {
   "property": "C242",
   "status": "partial",
   "theorems": [
    "Tm.Hash.Owned.C242_memory_partial",
    "Tm.Hash.Owned.C242_not_grow",
    "Tm.Hash.Owned.C242_not_null"
   ],
   "note": "Maps with strings as values own their memory. C242_memory_partial: **C242**, partial: if the values are strings too, with the macros of the documentation for copying and destroying them and with a `TMH_X_VALUE_MOVE` that sets its source to null, then no operation faults, the answers are those of a finite map, the blocks in use are those the map points to, each once, and `destroy` restores the memory. Missing: the default `TMH_X_VALUE_MOVE` and values that are null pointers, for which it is false. C242_not_grow: **C242** fails for strings as values with the macros of the documentation and the default `TMH_X_VALUE_MOVE`: when the map grows, the values are given back although the new table points to them. After twelve insertions, reading the value of the first key uses a block that was given back, and destroying the map gives blocks back twice. C242_not_null: **C242** fails for null pointers as values, which `tmh_string_copy` accepts: the value in the map is never written, and destroying it reads it."
  },
  {
   "property": "C243",
   "status": "partial",
   "theorems": [
    "Tm.Hash.Owned.C243_destroy_partial",
    "Tm.Hash.Owned.C243_not_create"
   ],
   "note": "A map that could not be created can be destroyed. C243_destroy_partial: **C243**, partial: if the first array cannot be had, or both can, destroying the map at once restores the memory. Missing: the case in which only the second array cannot be had, for which it is false. C243_not_create: **C243** fails if only the second array cannot be had: the first one was given back, the map still points to it, and `destroy` gives it back again."
  },
  {
   "property": "C244",
   "status": "proved",
   "theorems": [
    "Tm.Hash.Owned.C244_equals",
    "Tm.Hash.Owned.C244_copy"
   ],
   "note": "String helpers of the hash map"
  },
  {
   "property": "C245",
   "status": "proved",
   "theorems": [
    "Tm.Json.C245_ends",
    "Tm.Json.C245_allocated_ends"
   ],
   "note": "Reading an extended document ends"
  },
  {
   "property": "C246",
   "status": "proved",
   "theorems": [
    "Tm.Json.C246_structure",
    "Tm.Json.C246_memory"
   ],
   "note": "Extensions leave JSON readable"
  },
  {
   "property": "C247",
   "status": "partial",
   "theorems": [
    "Tm.Json.C247_content_partial",
    "Tm.Json.C247_not_strings",
    "Tm.Json.C247_not_numbers"
   ],
   "note": "Extensions leave the meaning of JSON as it is. C247_content_partial: C247, partial: missing are the contents of texts that end in a digit, of strings that end in an escape of two characters, and of names with escapes, as for the reader without extensions (C67). For all others the document holds exactly what the text means, with every set of flags. C247_not_strings: C247 fails: with no flag or all of them, `[\"\\n\"]` is read as an array with the letter `n`. C247_not_numbers: C247 fails: with no flag or all of them, a text of two digits is read as an empty number."
  },
  {
   "property": "C248",
   "status": "partial",
   "theorems": [
    "Tm.Json.C248_json_partial",
    "Tm.Json.C248_same_partial",
    "Tm.Json.C248_not_json"
   ],
   "note": "Without extensions only JSON is accepted. C248_json_partial: C248, partial: missing are texts with a token behind the root. What is accepted without extensions is JSON, and the document is the one of `jsonMakeDocument`; or `jsonMakeDocument` refuses it because of a token that it does not expect. C248_same_partial: C248, partial: the same for every set of the flags that both readers know. C248_not_json: C248 fails: two strings, and a string behind an array, are accepted as one document without any extension. They are not JSON."
  },
  {
   "property": "C249",
   "status": "partial",
   "theorems": [
    "Tm.Json.C249_plain_partial",
    "Tm.Json.C249_json_partial",
    "Tm.Json.C249_not_inside",
    "Tm.Json.C249_not_asserted"
   ],
   "note": "Extended documents stay in their memory. C249_plain_partial: C249, partial: missing are the extensions, texts that end within the exponent of a number, and texts with several tokens behind the root, for which an assertion fails. Without extensions nothing is read or written outside of the memory for all others. C249_json_partial: C249, partial: with extensions, texts that are JSON are read without a fault, in memory of the size that is asked for. C249_not_inside: C249 fails: a bracket in a block comment or in a raw string is counted, and more elements are written than were allocated. C249_not_asserted: C249 fails: for three strings an assertion fails, without any extension."
  },
  {
   "property": "C250",
   "status": "partial",
   "theorems": [
    "Tm.Alloc.C250_create_partial",
    "Tm.Alloc.C250_destroy_partial",
    "Tm.Alloc.C250_destroy_null",
    "Tm.Alloc.C250_create_nothing",
    "Tm.Alloc.C250_not_inside",
    "Tm.Alloc.C250_not_pointers"
   ],
   "note": "Creating and destroying objects on an allocator. C250_create_partial: C250, partial: missing are requests so large that the number of bytes wraps around, and arrays of pointers. All others succeed exactly if the array, at the first aligned address behind the fill level, fits in the buffer; then the objects of the array were constructed, each once and in order, and the buffer is filled up to the end of the array. Otherwise the result is null, nothing was constructed and the allocator is as before. The functions for single objects, arrays and arrays of at least some size do the same. C250_destroy_partial: C250, partial as above: destroying what was created last, by hand or by a `unique_ptr`, ends each object of it once and no other, no assertion fails, and the fill level is where the array was: creating the same again gives the same address. C250_not_inside: C250 fails: for an array whose size in bytes is 8 when it wraps around, 8 bytes are allocated, and objects are constructed behind them. C250_not_pointers: C250 fails: in an array of one pointer to objects of 64 bytes, `create` constructs such an object in the 8 bytes of the pointer."
  },
  {
   "property": "C251",
   "status": "proved",
   "theorems": [
    "Tm.Alloc.C251_not_freed_twice",
    "Tm.Alloc.C251_owned",
    "Tm.Alloc.C251_all_given_back"
   ],
   "note": "Memory of dynamic stack allocators"
  },
  {
   "property": "C252",
   "status": "proved",
   "theorems": [
    "Tm.Alloc.C252_moved",
    "Tm.Alloc.C252_self",
    "Tm.Alloc.C252_without_memory"
   ],
   "note": "Moving dynamic stack allocators"
  },
  {
   "property": "C253",
   "status": "partial",
   "theorems": [
    "Tm.Async.C253_all_partial",
    "Tm.Async.C253_not_polled",
    "Tm.Async.C253_not_after_timeout"
   ],
   "note": "After a successful wait for all works all of them are done. C253_all_partial: C253: after `tma_wait_all` or `tma_wait_all_for` have returned `TM_OK` the procedures of all works have returned. Missing: more than 64 handles with the limit 0, see `C253_not_polled`; more than 64 handles with another limit, which takes a way that is not modelled; works for which `tma_wait_single_for` ran out of time before, see `C253_not_after_timeout`. C253_not_polled: C253 does not hold in general: with 128 handles and the limit 0 `tma_wait_all_for` gives up on the first 64 works as soon as 65 are not finished, and goes on with the last 64; if these are finished the result is `TM_OK`, although no procedure of the first 64 works was called. C253_not_after_timeout: C253 and C254 do not hold in general: after `tma_wait_single_for` ran out of time the flag of a work says that it is finished (see `C119_not_timeout`); `tma_wait_all` and `tma_wait_any` then return `TM_OK` although the procedure was not called."
  },
  {
   "property": "C254",
   "status": "partial",
   "theorems": [
    "Tm.Async.C254_any_partial"
   ],
   "note": "A successful wait for any work names one that is done. C254_any_partial: C254: after `tma_wait_any` or `tma_wait_any_for` have returned `TM_OK` the handle with the index that was returned is valid and the procedure of its work has returned. Missing: more than 64 handles and a limit other than 0; works for which `tma_wait_single_for` ran out of time before."
  },
  {
   "property": "C255",
   "status": "partial",
   "theorems": [
    "Tm.Async.C255_once_partial",
    "Tm.Async.C255_not_once"
   ],
   "note": "Waiting for several works calls no procedure twice. C255_once_partial: C255: whatever is waited for, with whatever limits, the procedure of each work is called at most once. Missing: the same handle twice in an array, see `C255_not_once`; more than 64 handles and a limit other than 0, unless all are waited for without limit. C255_not_once: C255 does not hold in general: `tma_wait_all` with the same handle twice calls the procedure twice if the queues are full."
  },
  {
   "property": "C256",
   "status": "partial",
   "theorems": [
    "Tm.Async.C256_no_fault_partial",
    "Tm.Async.C256_polls_partial",
    "Tm.Async.C256_not_inside",
    "Tm.Async.C256_not_asserted",
    "Tm.Async.C256_not_twice"
   ],
   "note": "Waiting for several works has no undefined behaviour. C256_no_fault_partial: C256: `tma_wait_all`, `tma_wait_any` and `tma_wait_any_for` of handles of which one is valid never fail an assertion, and access only the arrays and slots there are; the only other end is that they do not return. Missing: `tma_wait_all_for`, see `C256_not_inside` and `C256_not_asserted`; the same handle twice, see `C256_not_twice`; more than 64 handles and a limit other than 0, unless all are waited for without limit. C256_polls_partial: C256: `tma_wait_any_for` with the limit 0 returns. C256_not_inside: C256 does not hold in general: `tma_wait_all_for` with one handle and the limit 0 reads behind the array, since it looks at 64 handles even if there are less. C256_not_asserted: C256 does not hold in general: the assertion of `tma_wait_all_for` looks at the event with the number of the handle, which is not set if a handle before it is invalid. C256_not_twice: C256 does not hold in general: `tma_wait_any` with the same handle twice fails an assertion if the work cannot be pushed at first."
  },
  {
   "property": "C257",
   "status": "proved",
   "theorems": [
    "Tm.Lock.C257_one_at_a_time",
    "Tm.Lock.C257_fault"
   ],
   "note": "A locking allocator behaves as if one thread used it"
  },
  {
   "property": "C258",
   "status": "proved",
   "theorems": [
    "Tm.Lock.C258_goes_on"
   ],
   "note": "A locking allocator does not deadlock"
  },
  {
   "property": "C259",
   "status": "proved",
   "theorems": [
    "Tm.Lock.C259_blocks"
   ],
   "note": "Threads that share a stack allocator get different memory"
  },
  {
   "property": "C260",
   "status": "partial",
   "theorems": [
    "Tm.Dbl.C260_same_partial",
    "Tm.Dbl.C260_not_small",
    "Tm.Dbl.C260_not_great",
    "Tm.Dbl.C260_not_printed"
   ],
   "note": "Floats survive printing with 14 decimals and reading. C260_same_partial: Missing: numbers below 2^-21 other than zero, and numbers from 2^53 on (see the `C260_not_` theorems). A `float` that is printed with 14 decimals, or with as many as are needed, is read as the same `float`: the whole text is read, and the number that comes out is the one that was printed. (The sign of a zero is kept only if the caller asks for it.) C260_not_small: 1/1073741824 and a bit more: the decimals that are printed are too few, and another number is read. C260_not_great: 2^60: the text has 19 digits in front of the dot, of which 18 are read. C260_not_printed: Every finite number from 2^64 on: the behaviour of printing it is undefined."
  },
  {
   "property": "C261",
   "status": "partial",
   "theorems": [
    "Tm.Dbl.C261_value_partial",
    "Tm.Dbl.C261_not_range"
   ],
   "note": "scan_float gives the float next to the number in the text. C261_value_partial: Missing: as for C167, and numbers above 2^127 (see `C261_not_range`). The number that is written is one that a `float` can have, and it differs from the one that the text stands for by at most half a unit of the last of 24 binary digits and 2 * 10^-14 of it. C261_not_range: \"1e39\" is no number that a `float` can have, and too great for one, but infinity is written and no error is returned."
  },
  {
   "property": "C262",
   "status": "proved",
   "theorems": [
    "Tm.Dbl.C262_initialised",
    "Tm.Dbl.C262_result",
    "Tm.Dbl.C262_length"
   ],
   "note": "scan_float reads no uninitialised memory and leaves its output as it is in case of an error"
  },
  {
   "property": "C263",
   "status": "proved",
   "theorems": [
    "Tm.Json.C263_structure",
    "Tm.Json.C263_memory"
   ],
   "note": "Flags leave JSON readable"
  },
  {
   "property": "C264",
   "status": "partial",
   "theorems": [
    "Tm.Json.C264_content_partial",
    "Tm.Json.C264_not_strings"
   ],
   "note": "Flags leave the meaning of JSON as it is. C264_content_partial: C264, partial: missing are the contents of texts that end in a digit, of strings that end in an escape of two characters, and of names with escapes, as without flags (C67). For all others the document holds exactly what the text means, with every set of flags. C264_not_strings: C264 fails: with every flag `[\"\\n\"]` is read as an array with the letter `n`."
  },
  {
   "property": "C265",
   "status": "proved",
   "theorems": [
    "Tm.Json.C265_same",
    "Tm.Json.C265_json"
   ],
   "note": "A further flag does not change what could be read without it"
  },
  {
   "property": "C266",
   "status": "partial",
   "theorems": [
    "Tm.Json.C266_nearest_partial",
    "Tm.Json.C266_not_long"
   ],
   "note": "Floating point numbers of a document are read with correct rounding. C266_nearest_partial: **C266, in part.** Missing: texts of more than 511 chars, see `C266_not_long`. `jsonGetDouble` of a value that is written as a number gives the nearest `double`, and the default value if the number is too great. A number below the least normal one gives the nearest `double` or the default value, as the C library has it (`tiny`). C266_not_long: **C266 does not hold** of texts of more than 511 chars: of \"1.000\u20260\" with 510 zeros the result is the default value."
  },
  {
   "property": "C267",
   "status": "partial",
   "theorems": [
    "Tm.Json.C267_exact_partial",
    "Tm.Json.C267_close_partial",
    "Tm.Json.C267_not_nearest",
    "Tm.Json.C267_not_range"
   ],
   "note": "Floats of a document are read with correct rounding. C267_exact_partial: **C267, in part.** Missing: texts of more than 511 chars (as for C266), and the nearest `float` for numbers that no `float` can have, see `C267_not_nearest` and `C267_not_range`. `jsonGetFloat` of a value that is written as a number that a `float` can have gives this number. C267_close_partial: **C267, in part.** Missing as above. The `float` differs from the number by at most half a unit of the last of 24 binary digits, and 2^-52 of it. C267_not_nearest: **C267 does not hold.** The number is rounded twice: the nearest `float` of this number, which is a little more than 1 + 2^-24, is 1 + 2^-23, but the result is 1. C267_not_range: **C267 does not hold** of numbers that are too great for a `float`, but not for a `double`: the result is infinity instead of the default value."
  },
  {
   "property": "C268",
   "status": "proved",
   "theorems": [
    "Tm.Json.C268_special"
   ],
   "note": "Infinity and NaN of a document"
  },
  {
   "property": "C269",
   "status": "partial",
   "theorems": [
    "Tm.Json.C269_default_partial",
    "Tm.Json.C269_not_default"
   ],
   "note": "Values that are no numbers give the default value. C269_default_partial: **C269, in part.** Missing: other texts that are no numbers, see `C269_not_default`. `jsonGetDouble` and `jsonGetFloat` give the default value for null, objects and arrays, and all functions for numbers give it for the empty string. C269_not_default: **C269 does not hold** of texts that are no numbers: of \"abc\" the result is zero, not the default value."
  },
  {
   "property": "C270",
   "status": "partial",
   "theorems": [
    "Tm.Util.C270_symmetric",
    "Tm.Util.C270_same",
    "Tm.Util.C270_finite_partial",
    "Tm.Util.C270_not_infinite"
   ],
   "note": "Floats are compared with a tolerance that does not depend on their order. C270_finite_partial: **C270, in part.** Missing: infinities, see `C270_not_infinite`. For finite numbers: equal if they differ by at most 0.999999 millionths of 1 or of the greater one of them, and not equal if they differ by more than 1.000001 millionths of both. C270_not_infinite: An infinity is equal to every number and to the other infinity."
  },
  {
   "property": "C271",
   "status": "partial",
   "theorems": [
    "Tm.Util.C271_between_partial",
    "Tm.Util.C271_not_between"
   ],
   "note": "lerp stays between its ends. C271_between_partial: **C271, in part.** Missing: ends whose difference is no number that a `float` can have, see `C271_not_between`. `lerp` with `t` between 0 and 1 gives a number between the ends, the first one for 0 and the second one for 1. C271_not_between: **C271 does not hold** in general: `lerp(1, -1, b)` is greater than `b`. And where the difference is too great for a `float`, the result is not even a number."
  },
  {
   "property": "C272",
   "status": "partial",
   "theorems": [
    "Tm.Util.C272_between_partial",
    "Tm.Util.C272_not_between"
   ],
   "note": "remap stays within the new range. C272_between_partial: **C272, in part.** Missing: ends whose difference is no number that a `float` can have, see `C272_not_between`, and ranges of a length above 2^127. `remap` of a number in a range gives a number between the ends of the other range, the first one for the begin of the range and the second one for its end. C272_not_between: **C272 does not hold** in general, for the same reason as C271."
  },
  {
   "property": "C273",
   "status": "proved",
   "theorems": [
    "Tm.Util.C273_divide"
   ],
   "note": "safeDivide divides with correct rounding and never by zero"
  },
  {
   "property": "C274",
   "status": "proved",
   "theorems": [
    "Tm.Util.C274_clamp",
    "Tm.Util.C274_special"
   ],
   "note": "clamp of floats gives the nearest number of the range"
  },
  {
   "property": "C275",
   "status": "partial",
   "theorems": [
    "Tm.Util.C275_exclusive_partial",
    "Tm.Util.C275_not_one"
   ],
   "note": "A number is less than, equal to or greater than zero, and only one of them. C275_exclusive_partial: **C275, in part.** Missing: not both less than zero and equal to zero, see `C275_not_one`. Of every number at most one of \"equal to zero\" and \"greater than zero\" holds, and at most one of \"less than zero\" and \"greater than zero\". One of the three holds unless the number is 0.001f. C275_not_one: **C275 does not hold** for \"less than zero\": 0 and 0.0005 are also less than zero. Nothing holds of 0.001f."
  },
  {
   "property": "C276",
   "status": "proved",
   "theorems": [
    "Tm.Util.C276_equal",
    "Tm.Util.C276_value",
    "Tm.Util.C276_special",
    "Tm.Util.C276_clamp"
   ],
   "note": "floatEq and floatEqSoft compare within their tolerances"
  },
  {
   "property": "C277",
   "status": "partial",
   "theorems": [
    "Tm.Bez.C277_ends_partial",
    "Tm.Bez.C277_not_ends"
   ],
   "note": "Evaluating a Bezier curve ends. C277_ends_partial: **C277, in part.** Missing: more than 2^24 steps, see `C277_not_ends`. Both functions end for every curve and every parameter, NaN and infinities included: after at most four times as many iterations as there are steps. They do not fail an assertion. C277_not_ends: **C277 does not hold** for 2^25 steps: evaluating any curve at its end does not end, because `current` stays at 0.5 or below it."
  },
  {
   "property": "C278",
   "status": "partial",
   "theorems": [
    "Tm.Pack.C278_guillotine_partial",
    "Tm.Pack.C278_maxRects_partial",
    "Tm.Pack.C278_not_maxRects",
    "Tm.Pack.C278_not_faultless"
   ],
   "note": "The occupancy of a bin is the used part of its area. C278_guillotine_partial: **C278, in part.** Missing: bins of the MaxRects functions in which rectangles overlap, see `C278_not_maxRects`, and bins with an area above INT_MAX, see `C278_not_faultless`. After any history of the guillotine functions the occupancy is a number from 0 to 1 that differs from the quotient of the areas by at most 2^-21. It is 0 for an empty bin and 1 for one without free rectangles. C278_maxRects_partial: **C278, in part.** Missing as above. The same for the MaxRects functions, as long as no rectangle had exactly the size of a free rectangle. C278_not_maxRects: **C278 does not hold** for the MaxRects functions in general: more than the whole bin is occupied, see `C87_not_apart`. C278_not_faultless: **C278 does not hold** for great bins: the product of the sizes overflows."
  }
 ]
}