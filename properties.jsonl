{"id": "C01", "title": "128-bit add/sub wrap modulo 2^128", "statement": "tmi_add, tmi_sub, tmi_add_u64, tmi_sub_u64, tmi_inc and tmi_dec return exactly the sum/difference of their operands modulo 2^128; no carry or borrow between the two 64-bit halves is ever lost.", "quantifier": "all pairs of 128-bit values (and all 64-bit right operands)", "why_tests_cant": "2^256 operand pairs; carry bugs only show on specific bit patterns", "anchors": ["tm_uint128.h: tmi_add, tmi_sub, tmi_add_u64, tmi_sub_u64, tmi_inc, tmi_dec, tmi_internal_add64, tmi_internal_sub64"]}
{"id": "C02", "title": "128-bit multiplication is exact modulo 2^128", "statement": "tmi_mul and tmi_mul_u64 return the product modulo 2^128, and the 64x64 multiplication they are built from returns the full 128-bit product.", "quantifier": "all pairs of operands", "why_tests_cant": "2^256 operand pairs; partial-product carries are rare", "anchors": ["tm_uint128.h: tmi_mul, tmi_mul_u64, tmi_internal_mul64"]}
{"id": "C03", "title": "128-bit division and remainder are Euclidean", "statement": "tmi_divmod / tmi_divmod_u64 (and tmi_div, tmi_mod) with a non-zero divisor return quotient floor(a/b) and remainder a mod b; a zero divisor is never given a silent result.", "quantifier": "all dividends and all non-zero divisors", "why_tests_cant": "the binary long division runs a data dependent number of steps over 2^256 inputs", "anchors": ["tm_uint128.h: tmi_divmod, tmi_divmod_u64, tmi_div, tmi_mod"]}
{"id": "C04", "title": "128-bit shifts and bit operations", "statement": "For shift amounts below 128 tmi_shl_u64/tmi_shr_u64 equal multiplication/floor division by 2^shift (mod 2^128); and/or/xor/not act on every bit; tmi_set_bit sets exactly the addressed bit; shift amounts of 128 and more are outside the precondition and are not given a value.", "quantifier": "all values and all shift amounts", "why_tests_cant": "128 shift amounts times 2^128 values", "anchors": ["tm_uint128.h: tmi_shl_u64, tmi_shr_u64, tmi_shl, tmi_shr, tmi_and, tmi_or, tmi_xor, tmi_not, tmi_set_bit, tmi_make_bitmask"]}
{"id": "C05", "title": "128-bit comparisons are the order of the represented numbers", "statement": "tmi_less_than, tmi_less_than_or_equal, tmi_greater_than, tmi_greater_than_or_equal, tmi_equal, tmi_cmp and the is_zero/is_bit_set predicates agree with the numeric order of the represented values.", "quantifier": "all pairs of values", "why_tests_cant": "2^256 pairs", "anchors": ["tm_uint128.h: tmi_less_than, tmi_less_than_or_equal, tmi_greater_than, tmi_greater_than_or_equal, tmi_equal, tmi_cmp, tmi_is_zero"]}
{"id": "C06", "title": "Bit scans and population count", "statement": "find-last-set, find-first-set and popcount (32, 64 and 128 bit, including the De Bruijn fallbacks) return the index of the highest/lowest set bit and the number of set bits.", "quantifier": "all values (non-zero for the scans)", "why_tests_cant": "2^32 / 2^64 / 2^128 values through a multiply-and-lookup hash", "anchors": ["tm_uint128.h: tmi_fls, tmi_ffs, tmi_popcount, tmi_fls_u32, tmi_ffs_u32, tmi_popcount_u32, tmi_fls_u64, tmi_ffs_u64, tmi_popcount_u64"]}
{"id": "C07", "title": "Printing and re-reading a 128-bit value gives the value back", "statement": "For every base 2..36 print_u128 writes the canonical numeral of the value (no leading zeros, requested case), and scan_u128_n of that text returns the same value and consumes the whole text.", "quantifier": "all 128-bit values, all bases 2..36, both letter cases", "why_tests_cant": "2^128 values times 35 bases", "anchors": ["tm_uint128.h: print_u128, print_u128_w, get_digits_count_u128, scan_u128, scan_u128_n"]}
{"id": "C08", "title": "128-bit to floating point conversion rounds as documented", "statement": "Conversion of a 128-bit integer to float/double under a rounding mode yields the representable value the mode prescribes (and values exactly representable convert exactly).", "quantifier": "all values and all rounding modes", "why_tests_cant": "2^128 values; the carry out of the mantissa occurs on a vanishing fraction of inputs", "anchors": ["tm_uint128.h: tmi_to_float_rm, tmi_to_double_rm"]}
{"id": "C09", "title": "Floating point to 128-bit conversion truncates", "statement": "tmi_from_float / tmi_from_double of a finite non-negative value below 2^128 return the value truncated toward zero; the _s variants reject what cannot be represented.", "quantifier": "all finite floating point inputs", "why_tests_cant": "2^64 bit patterns", "anchors": ["tm_uint128.h: tmi_from_float, tmi_from_double, tmi_from_float_s, tmi_from_double_s"]}
{"id": "C10", "title": "Integer scanning is total and exact", "statement": "scan_i32/u32/i64/u64 (and their _n forms) consume exactly the longest prefix consisting of an optional minus sign (signed only) and digits of the given base; if that value is representable it is stored and TM_OK returned with the number of consumed chars; if it is not representable TM_ERANGE is returned and the output is left untouched; if there is no digit {0, TM_EINVAL} is returned and the output is left untouched.", "quantifier": "all strings of any length, all bases 2..36", "why_tests_cant": "unbounded strings; boundaries of the range check differ per base and width", "anchors": ["tm_conversion.h: scan_i32, scan_i32_n, scan_u32, scan_u32_n, scan_i64, scan_i64_n, scan_u64, scan_u64_n"]}
{"id": "C11", "title": "The nul-terminated and the length-delimited scanners agree", "statement": "For a string without embedded nul, scan_X(nullterminated) and scan_X_n(str, len) return the same result and store the same value.", "quantifier": "all strings, all bases, all integer types", "why_tests_cant": "unbounded strings", "anchors": ["tm_conversion.h: scan_i32, scan_i32_n, scan_u32, scan_u32_n, scan_i64, scan_i64_n, scan_u64, scan_u64_n"]}
{"id": "C12", "title": "Integer printing writes the canonical numeral and nothing else", "statement": "print_u32/u64/i32/i64 (any base 2..36, both cases) write exactly the canonical numeral of the value at dest[0..size), leave every other byte of the buffer untouched and return its length with TM_OK when it fits in maxlen.", "quantifier": "all values, bases, buffer sizes and previous buffer contents", "why_tests_cant": "all combinations of value, base and buffer size", "anchors": ["tm_conversion.h: print_u32, print_u64, print_i32, print_i64, print_u32_w, print_u64_w, print_decimal_u32_w, print_decimal_u64_w, print_hex_u32_w, print_hex_u64_w, get_digits_count_u32, get_digits_count_u64, get_digits_count_decimal_u32, get_digits_count_decimal_u64, get_digits_count_hex_u32, get_digits_count_hex_u64"]}
{"id": "C13", "title": "Integer printing never writes out of bounds and reports overflow", "statement": "If the numeral does not fit in maxlen the print functions return TM_EOVERFLOW and perform no write outside dest[0..maxlen); unsigned printers write nothing at all.", "quantifier": "all values, bases, maxlen including 0", "why_tests_cant": "all combinations of value, base and buffer size", "anchors": ["tm_conversion.h: print_u32_w, print_u64_w, print_decimal_u32_w, print_decimal_u64_w, print_hex_u32_w, print_hex_u64_w, print_i32, print_i64"]}
{"id": "C14", "title": "print then scan is the identity on integers", "statement": "Scanning what print_i32/u32/i64/u64 printed, in the same base, stores the original value and consumes the whole text.", "quantifier": "every value of the type, every base 2..36, both letter cases", "why_tests_cant": "2^64 values times 35 bases", "anchors": ["tm_conversion.h: print_i32, print_u32, print_i64, print_u64, scan_i32_n, scan_u32_n, scan_i64_n, scan_u64_n"]}
{"id": "C15", "title": "Printing with a caller-supplied width is safe for every width", "statement": "print_*_w takes the digit count from the caller. A wrong width fails the assertion before any write. In a build with TMC_CHECKED_WIDTH and assertions compiled out, for every width: nothing outside dest[0..maxlen) is written, the returned size is at most maxlen, the canonical numeral is printed when width is the digit count, and TM_EOVERFLOW is reported when width differs from the digit count.", "quantifier": "all values, widths (right or wrong), bases and buffer sizes", "why_tests_cant": "the pairs of value and wrong width are unbounded in number and the failure is a silent out of bounds write or an unwritten cell", "anchors": ["tm_conversion.h: print_u32_w, print_u64_w, print_decimal_u32_w, print_decimal_u64_w, print_hex_u32_w, print_hex_u64_w"]}
{"id": "C16", "title": "Hex dump of bytes is faithful", "statement": "print_hex_bytes writes for every byte its two hex digits, most significant nibble first in the order documented, reports TM_EOVERFLOW without writing when 2*size > maxlen, and the text determines the bytes.", "quantifier": "all byte strings (of less than 2^63 bytes, which is more than any object can have) and buffer sizes", "why_tests_cant": "unbounded byte strings", "anchors": ["tm_conversion.h: print_hex_bytes"]}
{"id": "C17", "title": "Boolean scanning accepts exactly the documented literals", "statement": "scan_bool / scan_bool_n accept exactly '1', '0', 'true', 'false' (letters in any case) as prefix, return the number of chars of that literal, never read past the given length, and reject everything else with {0, TM_EINVAL}.", "quantifier": "all strings and lengths", "why_tests_cant": "unbounded strings; the failure needs a mismatch in one position", "anchors": ["tm_conversion.h: scan_bool, scan_bool_n, tm_strnicmp, print_bool"]}
{"id": "C18", "title": "The hash map behaves like a finite map", "statement": "After any sequence of insert, remove and lookups, a lookup of key k returns the value most recently inserted for k and not removed since, and reports absence otherwise; the return values of insert/remove/find match the abstract map.", "quantifier": "all operation sequences, all key/value types with a lawful equality, all hash functions", "why_tests_cant": "unbounded histories with arbitrary collisions, tombstones and rehashes", "anchors": ["tm_hashmapx.h: tmh_insert, tmh_insert_move, tmh_find, tmh_find_index, tmh_get, tmh_remove, tmh_remove_index, tmh_grow"]}
{"id": "C19", "title": "The hash map's count is the number of stored keys", "statement": "After any operation sequence the reported count equals the number of keys present in the abstract map.", "quantifier": "all operation sequences", "why_tests_cant": "unbounded histories", "anchors": ["tm_hashmapx.h: count, tmh_insert_move, tmh_remove_index"]}
{"id": "C20", "title": "Rehashing preserves contents", "statement": "Growing the table (explicitly or on insert) never loses, duplicates or changes an entry and keeps the capacity a power of two.", "quantifier": "all reachable tables", "why_tests_cant": "depends on the whole history and on collision patterns", "anchors": ["tm_hashmapx.h: tmh_grow, tmh_rehash, tmh_insert_move"]}
{"id": "C21", "title": "Insertion terminates or reports failure", "statement": "tmh_insert always returns: either the entry is stored or false is reported (allocation failure).", "quantifier": "all tables, keys and hash functions", "why_tests_cant": "needs adversarial hash collisions", "anchors": ["tm_hashmapx.h: tmh_insert_move, tmh_grow"]}
{"id": "C22", "title": "Failed allocation leaves the map unchanged", "statement": "If growing fails because memory cannot be obtained, insert reports failure and the map still holds exactly what it held before.", "quantifier": "all tables and all allocation-failure schedules", "why_tests_cant": "needs every fault-injection point", "anchors": ["tm_hashmapx.h: tmh_insert_move, tmh_grow, tmh_create"]}
{"id": "C23", "title": "The byte hash is FNV-1a", "statement": "tmh_hash of a byte string equals the 64-bit FNV-1a hash, and hashing a concatenation equals combining the hashes incrementally.", "quantifier": "all byte strings", "why_tests_cant": "unbounded strings; the multiplication is written as a sum of shifts", "anchors": ["tm_hashmapx.h: tmh_hash, tmh_hash_combine, tmh_string_hash, tmh_string_hash_combine"]}
{"id": "C24", "title": "Alignment padding is minimal", "statement": "For a power-of-two alignment, the padding computed for an address makes it a multiple of the alignment and is smaller than the alignment.", "quantifier": "all addresses and all power-of-two alignments", "why_tests_cant": "2^64 x 64 combinations", "anchors": ["tm_allocator.h: get_alignment_offset, is_power_of_two"]}
{"id": "C25", "title": "Stack allocator blocks are aligned, in bounds and pairwise disjoint", "statement": "Every block handed out by StackAllocator lies inside its buffer, is aligned as requested, and does not overlap any other live block.", "quantifier": "all sequences of allocations, reallocations and frees, all sizes and alignments", "why_tests_cant": "unbounded histories, arithmetic wrap-around only at huge sizes", "anchors": ["tm_allocator.h: StackAllocator::allocate_bytes, StackAllocator::reallocate_bytes, StackAllocator::free_bytes"]}
{"id": "C26", "title": "Stack allocator frees restore capacity in LIFO order", "statement": "Freeing the blocks of any allocation sequence in reverse order succeeds and returns the allocator to its initial fill level, whatever sizes and alignments were used.", "quantifier": "all allocation sequences", "why_tests_cant": "unbounded histories with mixed alignments", "anchors": ["tm_allocator.h: StackAllocator::free_bytes, StackAllocator::is_most_recent_allocation"]}
{"id": "C27", "title": "Allocator guard restores the saved state", "statement": "A StackAllocatorGuard scope leaves the allocator exactly as it found it, and allocations made before the scope stay valid.", "quantifier": "all allocation sequences inside the scope", "why_tests_cant": "unbounded histories", "anchors": ["tm_allocator.h: StackAllocatorGuard, StackAllocator::set_state, StackAllocator::get_state"]}
{"id": "C28", "title": "In-place reallocation keeps the block", "statement": "reallocate_bytes of the most recent block keeps its address and contents up to the smaller size, grows only if the buffer has room and changes nothing on failure.", "quantifier": "all states, sizes and alignments", "why_tests_cant": "size/alignment/state combinations", "anchors": ["tm_allocator.h: StackAllocator::reallocate_bytes, StackAllocator::reallocate_bytes_in_place"]}
{"id": "C29", "title": "Id allocator never hands out a live id twice", "statement": "FixedSizeIdAllocator::create returns ids that are distinct from all live ids, and each live id resolves to its own storage slot; destroyed ids are recycled before the storage grows.", "quantifier": "all create/destroy sequences that only destroy live ids", "why_tests_cant": "unbounded histories through the intrusive free list", "anchors": ["tm_allocator.h: FixedSizeIdAllocator::create, FixedSizeIdAllocator::destroy, FixedSizeIdAllocator::data_from_id"]}
{"id": "C30", "title": "Stale generational ids are rejected", "statement": "After destroy(id), data_from_id(id) returns NULL, also after the slot was reused (up to generation wrap-around).", "quantifier": "all create/destroy histories", "why_tests_cant": "unbounded histories", "anchors": ["tm_allocator.h: FixedSizeGenerationalIdAllocator::create, destroy, data_from_id, pop, push, base_from_id"]}
{"id": "C31", "title": "Live generational ids resolve", "statement": "An id returned by FixedSizeGenerationalIdAllocator::create resolves to its own slot until it is destroyed, and two live ids are never equal.", "quantifier": "all create/destroy histories", "why_tests_cant": "fails only after slot reuse", "anchors": ["tm_allocator.h: FixedSizeGenerationalIdAllocator::create, pop, push, base_from_id, data_from_id"]}
{"id": "C32", "title": "UTF-8 encoding of a code point round-trips and is the standard encoding", "statement": "For every Unicode scalar value tmu_utf8_encode writes its 1..4 byte standard encoding, and tmu_utf8_extract of these bytes (followed by anything) returns the code point and consumes exactly these bytes.", "quantifier": "all scalar values and all following bytes", "why_tests_cant": "1.1 million code points times arbitrary tails", "anchors": ["tm_unicode.h: tmu_utf8_encode, tmu_utf8_extract"]}
{"id": "C33", "title": "UTF-16 encoding of a code point round-trips", "statement": "For every scalar value tmu_utf16_encode writes its standard 1 or 2 unit encoding and tmu_utf16_extract returns the code point and consumes exactly these units; lone surrogates are rejected.", "quantifier": "all scalar values and all following units", "why_tests_cant": "arbitrary tails", "anchors": ["tm_unicode.h: tmu_utf16_encode, tmu_utf16_extract"]}
{"id": "C34", "title": "Extraction only accepts well-formed UTF-8", "statement": "tmu_utf8_extract succeeds exactly when the stream starts with a well-formed UTF-8 sequence, always yields a scalar value and never reads past the end.", "quantifier": "all byte streams", "why_tests_cant": "unbounded byte strings", "anchors": ["tm_unicode.h: tmu_utf8_extract, tmu_is_valid_codepoint"]}
{"id": "C35", "title": "The valid range is the longest well-formed prefix", "statement": "tmu_utf8_valid_range / tmu_utf16_valid_range return the length of the longest prefix that is a concatenation of standard encodings of scalar values.", "quantifier": "all byte / unit strings", "why_tests_cant": "unbounded strings", "anchors": ["tm_unicode.h: tmu_utf8_valid_range, tmu_utf16_valid_range"]}
{"id": "C36", "title": "Truncated copy never cuts a character", "statement": "tmu_utf8_copy_truncated of a well-formed string into a buffer of n bytes copies the longest well-formed prefix that fits and reports its length.", "quantifier": "all well-formed strings and buffer sizes", "why_tests_cant": "unbounded strings", "anchors": ["tm_unicode.h: tmu_utf8_copy_truncated"]}
{"id": "C37", "title": "UTF-8 <-> UTF-16 transcoding preserves the text", "statement": "For well-formed input and a large enough buffer, tmu_utf16_from_utf8 and tmu_utf8_from_utf16 write exactly the other encoding of the same code points; converting back yields the original.", "quantifier": "all well-formed strings", "why_tests_cant": "unbounded strings", "anchors": ["tm_unicode.h: tmu_utf8_from_utf16, tmu_utf8_from_utf16_ex, tmu_utf16_from_utf8, tmu_utf16_from_utf8_ex"]}
{"id": "C38", "title": "Transcoding reports the required size", "statement": "In the modes error and skip, and in the mode replace on well-formed input: if the output buffer is too small the transcoders return TM_ERANGE with the exact number of units a sufficient buffer needs (with the terminator, if asked for), never write past the buffer, and a call with that size succeeds. In the mode error, an input is either refused with TM_EINVAL for every buffer or for none; ill-formed UTF-16 is always refused. Appending to an output stream counts exactly the necessary size and reports an error as soon as it does not fit.", "quantifier": "all inputs and buffer sizes", "why_tests_cant": "unbounded strings times buffer sizes", "anchors": ["tm_unicode.h: tmu_utf8_from_utf16_ex, tmu_utf16_from_utf8_ex, tmu_utf8_append, tmu_utf16_append"]}
{"id": "C39", "title": "Transcoding terminates under every validation mode", "statement": "tmu_utf8_from_utf16_ex and tmu_utf16_from_utf8_ex return for every input and every validation mode (error, skip, replace).", "quantifier": "all inputs and modes", "why_tests_cant": "non-termination cannot be observed by a finite test", "anchors": ["tm_unicode.h: tmu_utf8_from_utf16_ex, tmu_utf16_from_utf8_ex"]}
{"id": "C40", "title": "Skipping invalid UTF-8 keeps all valid text", "statement": "tmu_utf8_skip_invalid / tmu_utf16_skip_invalid remove only invalid units: every maximal well-formed run of the input is kept, in order, and the result is well-formed.", "quantifier": "all byte / unit strings", "why_tests_cant": "unbounded strings", "anchors": ["tm_unicode.h: tmu_utf8_skip_invalid, tmu_utf16_skip_invalid"]}
{"id": "C41", "title": "UTF-8 comparison is code point order", "statement": "On well-formed strings tmu_utf8_compare orders exactly like the lexicographic order of the code point sequences; tmu_utf8_equals is equality.", "quantifier": "all pairs of well-formed strings", "why_tests_cant": "unbounded pairs", "anchors": ["tm_unicode.h: tmu_utf8_compare_n, tmu_utf8_equals_n"]}
{"id": "C42", "title": "Code point counting", "statement": "tmu_utf8_count_codepoints of a well-formed string is the number of code points it encodes.", "quantifier": "all well-formed strings", "why_tests_cant": "unbounded strings", "anchors": ["tm_unicode.h: tmu_utf8_count_codepoints, tmu_utf8_count_codepoints_n"]}
{"id": "C43", "title": "BOM handling", "statement": "A leading byte order mark selects the encoding and is not part of the converted output.", "quantifier": "all inputs, including inputs consisting of the BOM alone", "why_tests_cant": "unbounded inputs; boundary at length of BOM", "anchors": ["tm_unicode.h: tmu_utf8_convert_from_bytes, tmu_utf8_convert_from_bytes_dynamic, has_bom helpers"]}
{"id": "C44", "title": "Substring and character search find the first / last occurrence", "statement": "tmsu_find_* return a pointer to the first position at which the searched item occurs, and the _last_ forms the last such position; if there is none, NULL (or the end for the non-NULL forms).", "quantifier": "all haystacks, needles and lengths", "why_tests_cant": "unbounded strings", "anchors": ["tm_stringutil.h: tmsu_find_char_n, tmsu_find_last_char_n_ex, tmsu_find_n, tmsu_find_last_n_ex, tmsu_find_first_of_n, tmsu_find_first_not_of_n, tmsu_find_last_of_n_ex, tmsu_find_last_not_of_n_ex"]}
{"id": "C45", "title": "Unescaped search honours escapes", "statement": "tmsu_find_char_unescaped(_n) / tmsu_find_first_of_unescaped(_n) return the first searched character that is not escaped, where an escape character escapes the character after it unless it is itself escaped; a searched escape character matches when it is unescaped and does not escape another escape character.", "quantifier": "all strings, targets and escape characters", "why_tests_cant": "unbounded strings", "anchors": ["tm_stringutil.h: tmsu_find_char_unescaped_n, tmsu_find_first_of_unescaped_n, tmsu_is_char_unescaped"]}
{"id": "C46", "title": "Tokenizing is splitting at delimiters", "statement": "Iterating tmsu_next_token(_n) yields exactly the maximal delimiter-free pieces of the string in order; the skip_empty forms yield exactly the non-empty ones; iteration terminates.", "quantifier": "all strings and delimiter sets", "why_tests_cant": "unbounded strings", "anchors": ["tm_stringutil.h: tmsu_next_token, tmsu_next_token_n, tmsu_next_token_skip_empty, tmsu_next_token_skip_empty_n"]}
{"id": "C47", "title": "Trimming removes exactly the surrounding characters", "statement": "tmsu_trim_left_n / tmsu_trim_right_n remove the longest prefix / suffix of trimmed characters and nothing else.", "quantifier": "all strings", "why_tests_cant": "unbounded strings", "anchors": ["tm_stringutil.h: tmsu_trim_left_n, tmsu_trim_right_n"]}
{"id": "C48", "title": "Byte string comparison is lexicographic", "statement": "tmsu_compare_n is a total order equal to the lexicographic order of unsigned bytes with shorter-first, and tmsu_equals_n holds exactly for equal strings.", "quantifier": "all pairs (triples for transitivity)", "why_tests_cant": "unbounded strings", "anchors": ["tm_stringutil.h: tmsu_compare_n, tmsu_equals_n"]}
{"id": "C49", "title": "Human comparison is a strict weak order", "statement": "tmsu_human_compare_ansi(_n) can be used for sorting: it is antisymmetric and transitive.", "quantifier": "all pairs and triples of strings", "why_tests_cant": "transitivity violations need specially related triples", "anchors": ["tm_stringutil.h: tmsu_human_compare_ansi_n, tmsu_human_parse_and_advance"]}
{"id": "C50", "title": "Case-insensitive prefix/compare", "statement": "tmsu_strnicmp(a,b,n) is zero exactly when the first n chars agree ignoring ASCII case; the ignore-case starts_with/ends_with/equals functions follow.", "quantifier": "all strings and n", "why_tests_cant": "unbounded strings", "anchors": ["tm_stringutil.h: tmsu_strnicmp, tmsu_starts_with_ignore_case_ansi, tmsu_ends_with_ignore_case_ansi, tmsu_equals_ignore_case_ansi"]}
{"id": "C51", "title": "Base64 round-trips", "statement": "Decoding the base64 (or base64url) encoding of any byte string returns the byte string, and the encoding is the RFC 4648 one.", "quantifier": "all byte strings", "why_tests_cant": "unbounded byte strings", "anchors": ["tm_stringutil.h: tmsu_base64_encode, tmsu_base64_decode, tmsu_base64url_encode, tmsu_base64url_decode"]}
{"id": "C52", "title": "Base64 two-call size protocol", "statement": "A returned size > out_size means nothing usable was written and the returned size is sufficient; a returned size <= out_size means the complete result was written; never is anything written outside the buffer.", "quantifier": "all inputs and buffer sizes", "why_tests_cant": "off-by-one at exact buffer sizes", "anchors": ["tm_stringutil.h: tmsu_base64_encode, tmsu_base64_decode"]}
{"id": "C53", "title": "URL encoding round-trips", "statement": "tmsu_url_decode of tmsu_url_encode returns the original bytes; the encoding consists only of unreserved characters and %XX.", "quantifier": "all byte strings", "why_tests_cant": "unbounded byte strings", "anchors": ["tm_stringutil.h: tmsu_url_encode, tmsu_url_decode"]}
{"id": "C54", "title": "URL coding two-call size protocol", "statement": "tmsu_url_encode/decode return the exact required size; when it fits in the buffer the complete result was written, and nothing outside the buffer is ever written; malformed input decodes to 0.", "quantifier": "all inputs and buffer sizes", "why_tests_cant": "off-by-one at exact buffer sizes", "anchors": ["tm_stringutil.h: tmsu_url_encode, tmsu_url_decode"]}
{"id": "C55", "title": "String reversal is an involution", "statement": "tmsu_strnrev reverses the characters in place; applied twice it is the identity.", "quantifier": "all strings", "why_tests_cant": "unbounded strings", "anchors": ["tm_stringutil.h: tmsu_strrev, tmsu_strnrev"]}
{"id": "C56", "title": "Word search skips whitespace and stops at separators", "statement": "tmsu_find_word_end_n_ex skips leading whitespace and returns the first separator after it (or the end); tmsu_find_word_start_n_ex skips trailing whitespace and returns the position after the last separator before it (or the start).", "quantifier": "all ranges and separator sets", "why_tests_cant": "Boundary cases (empty, all-whitespace, separators at the ends) combine in unboundedly many ways.", "anchors": ["tm_stringutil.h: tmsu_find_word_end_n_ex, tmsu_find_word_start_n_ex"]}
{"id": "C57", "title": "Skipping while transcoding drops only what is invalid", "statement": "tmu_utf8_from_utf16_ex in the mode skip keeps every character of the input, in order, and drops exactly the units at which no character starts, whatever the position of the invalid units; it reports whether it dropped any.", "quantifier": "all unit strings, including lone surrogates at any position", "why_tests_cant": "unbounded strings with any number of invalid units", "anchors": ["tm_unicode.h: tmu_utf8_from_utf16_ex, tmu_utf16_extract"]}
{"id": "C58", "title": "The remaining room of a stack allocator is exact", "statement": "StackAllocator::remaining(alignment) is the size of the largest block that allocating with that alignment can return next: a request of that size succeeds and any larger request fails.", "quantifier": "all stack allocators whose buffer lies inside the address space, all power of two alignments, all request sizes", "why_tests_cant": "The result depends on the buffer address, the fill level and the alignment, a product of 64 bit ranges.", "anchors": ["tm_allocator.h: StackAllocator::remaining, StackAllocator::allocate"]}
{"id": "C59", "title": "Elements of the generational allocator have storage of their own", "statement": "The pointer that FixedSizeGenerationalIdAllocator returns for an id is aligned as requested at construction, and the element behind it overlaps neither another element nor the bookkeeping of any slot.", "quantifier": "all element sizes, power of two alignments, storage addresses aligned as requested and slots", "why_tests_cant": "The padding depends on the address, the slot number, the element size and the alignment together.", "anchors": ["tm_allocator.h: FixedSizeGenerationalIdAllocator::FixedSizeGenerationalIdAllocator, data_from_id, body_from_base"]}
{"id": "C60", "title": "Iterating the generational allocator visits the elements in use and stops", "statement": "Iterating a FixedSizeGenerationalIdAllocator from begin() visits every element in use once, in slot order, and then equals end(), without looking outside the storage.", "quantifier": "all states of the allocator", "why_tests_cant": "unbounded numbers of slots with any pattern of use; the step past the last element depends on memory that was never written", "anchors": ["tm_allocator.h: FixedSizeGenerationalIdAllocator::ForwardIterator, begin, end"]}
{"id": "C61", "title": "Iterating over the indices of a hash map shows every entry exactly once", "statement": "Going through the indices from 0 to the capacity with get yields, for every key present, its current value at exactly one index, and nothing else; remove_index removes exactly the entry shown at that index and reports whether there was one.", "quantifier": "all histories of operations on keys other than the reserved tombstone, all hash functions, all allocation-failure schedules, all indices", "why_tests_cant": "depends on the whole history of collisions, removals and rehashes", "anchors": ["tm_hashmapx.h: TMH_GET, TMH_REMOVE_INDEX, TMH_CAPACITY"]}
{"id": "C62", "title": "Converting bytes of any encoding gives the text as UTF-8", "statement": "tmu_utf8_convert_from_bytes, given bytes of a declared encoding (UTF-8, UTF-16 or UTF-32, either byte order), puts out the UTF-8 encoding of exactly the characters in the input, with each unit at which no character starts dropped, replaced or refused as the caller asks; it reports the encoding and whether anything was invalid. If the output does not fit it reports ERANGE and the exact size needed; it never writes outside of the buffer. Bytes that do not make up a whole unit are refused. Bytes of an undeclared encoding without a mark are UTF-8.", "quantifier": "all byte strings, all encodings, all validation modes, all replacement strings, all buffer sizes, with and without null terminator", "why_tests_cant": "unbounded strings with ill-formed parts anywhere, and every possible buffer size", "anchors": ["tm_unicode.h: tmu_utf8_convert_from_bytes, tmu_convert_bytes_to_utf8_internal, tmu_convert_bytes_from_utf16, tmu_convert_bytes_from_utf32"]}
{"id": "C63", "title": "Converting bytes of any encoding into allocated memory", "statement": "tmu_utf8_convert_from_bytes_dynamic puts the text of its input, in whatever encoding was declared or marked, into memory it allocates (or, for UTF-8, takes over the block of the caller and removes the mark), replacing, skipping or refusing what is invalid, with a terminator if asked for; if memory runs out it returns TM_ENOMEM without contents, and in every case the caller knows who owns the input block.", "quantifier": "all inputs, encodings, modes and all sequences of allocation outcomes", "why_tests_cant": "unbounded inputs times every point at which an allocation may fail", "anchors": ["tm_unicode.h: tmu_utf8_convert_from_bytes_dynamic, tmu_output_replace_invalid_utf8, tmu_output_replace_pos, tmu_output_nullterminate"]}
{"id": "C64", "title": "UTF-16 into a growing buffer", "statement": "tmu_utf8_from_utf16_dynamic_ex returns in the contents the UTF-8 of its well-formed input, growing the block exactly if needed; ill-formed input is refused or skipped as asked; if memory runs out, or the input is refused, the caller keeps the block and its size.", "quantifier": "all inputs, modes, blocks and allocation outcomes", "why_tests_cant": "unbounded strings times block sizes times allocation outcomes", "anchors": ["tm_unicode.h: tmu_utf8_from_utf16_dynamic_ex, tmu_utf8_from_utf16_dynamic"]}
{"id": "C65", "title": "A document is accepted exactly if its text is JSON", "statement": "jsonAllocateDocument without flags reports success exactly for the JSON texts of RFC 8259 (with surrogate escapes in pairs); jsonMakeDocument, in memory of any size, accepts nothing else.", "quantifier": "every byte string, every address and size of the memory", "why_tests_cant": "there are infinitely many texts, and the reader counts members with one scanner and reads them with another", "anchors": ["tm_json.h: jsonAllocateDocument, jsonMakeDocument, jsonReadObject, jsonReadArray, jsonSkipCurrent, jsonNextTokenImplicit, jsonIsValidUntilEof, readNumber, readQuotedString"]}
{"id": "C66", "title": "A document has the structure of its text", "statement": "For every JSON text the document has the same arrays, objects, types of values and keywords in the same order, names are views of the text as written, strings can be read, and 32 bytes of memory for each byte of the text always suffice.", "quantifier": "every JSON text, every address of the memory", "why_tests_cant": "nesting and the number of elements are unbounded, and the size of the memory is computed from the size of the text only", "anchors": ["tm_json.h: jsonAllocateDocument, jsonMakeDocument, jsonReadObject, jsonReadArray, jsonAllocate"]}
{"id": "C67", "title": "A document holds what its text means", "statement": "Numbers are shown as they are written, with the type float if they have a fraction or an exponent, int with a minus sign and uint otherwise; strings and names are the characters that they stand for.", "quantifier": "every JSON text", "why_tests_cant": "every position of every escape in every string matters, and every place at which a number can end", "anchors": ["tm_json.h: jsonMakeDocument, readNumber, jsonAllocateUnescapedString, jsonCopyUnescapedString"]}
{"id": "C68", "title": "No text makes the document reader leave its memory", "statement": "For every byte string, whether or not it is JSON, reading a document stays inside of the text and of the memory for the document, fails no assertion, and exposes no element that was not written.", "quantifier": "every byte string, memory of any size, every set of flags", "why_tests_cant": "hostile texts are chosen to be the ones that no test has", "anchors": ["tm_json.h: jsonMakeDocument, jsonNextTokenImplicit, readNumber, readQuotedString, jsonSkipCurrent, jsonReadObject, jsonReadArray"]}
{"id": "C69", "title": "Reading JSON ends", "statement": "Reading a document, skipping a value and reading tokens end for every text; each token other than the end and an error takes at least one byte.", "quantifier": "every byte string, memory of any size and every set of the seven flags of the model", "why_tests_cant": "a loop without progress shows only on the text that causes it", "anchors": ["tm_json.h: jsonMakeDocument, jsonNextTokenImplicit, jsonSkipCurrent, jsonCopyUnescapedString"]}
{"id": "C70", "title": "Unescaping a string gives its characters and stays inside of the buffer", "statement": "jsonCopyUnescapedString writes the characters that a valid string stands for, as many as fit, and never writes outside of the buffer.", "quantifier": "every string, every size of the buffer", "why_tests_cant": "the result depends on where in the string and in the buffer an escape lies", "anchors": ["tm_json.h: jsonCopyUnescapedString, tmj_get_codepoint, tmj_utf8_encode"]}
{"id": "C71", "title": "Blocks of the document memory do not overlap", "statement": "Blocks that jsonAllocate and jsonAllocateUnescapedString hand out, in any order and number, lie inside of the memory, are aligned as asked and do not overlap, although strings give memory back.", "quantifier": "every sequence of uses, every address and capacity", "why_tests_cant": "overlap depends on the whole history of requests", "anchors": ["tm_json.h: jsonAllocate, jsonAllocateUnescapedString, jsonGetAlignmentOffset"]}
{"id": "C72", "title": "Memory that a string does not need can be used again", "statement": "After jsonAllocateUnescapedString, exactly the bytes of the result are taken from the memory.", "quantifier": "every string and state of the memory", "why_tests_cant": "depends on how many bytes unescaping saves", "anchors": ["tm_json.h: jsonAllocateUnescapedString"]}
{"id": "C73", "title": "Too little memory for a document is reported", "statement": "If the memory given to jsonMakeDocument does not suffice, JERR_OUT_OF_MEMORY is reported; if success is reported, the document is complete.", "quantifier": "every text, memory of any size", "why_tests_cant": "the memory can run out at any of the allocations", "anchors": ["tm_json.h: jsonMakeDocument, jsonReadObject, jsonReadArray, jsonAllocateUnescapedString"]}
{"id": "C74", "title": "Reading tokens reports a text completely and in order", "statement": "For every JSON text, and a context stack with room for its nesting, calling jsonNextToken until it returns JTOK_EOF reports the brackets, the names of members and the values in the order of the text, with their types and their text, and no error.", "quantifier": "every JSON text, every capacity with room for its nesting", "why_tests_cant": "texts and nesting are unbounded", "anchors": ["tm_json.h: jsonNextToken, jsonNextTokenImplicit, jsonPushContext, jsonPopContext"]}
{"id": "C75", "title": "Reading tokens to the end accepts exactly JSON", "statement": "Calling jsonNextToken (plain flags) reaches JTOK_EOF exactly for JSON texts.", "quantifier": "every text", "why_tests_cant": "texts are unbounded", "anchors": ["tm_json.h: jsonNextToken, jsonNextTokenImplicit, jsonParseQuotedString"]}
{"id": "C76", "title": "The memory of the context stack decides only when reading stops", "statement": "With memory for n context entries, jsonNextToken reads the same tokens as with an entry for each byte of the text, up to the first bracket at which the open brackets need more than n entries, where it reports JERR_OUT_OF_CONTEXT_STACK_MEMORY. The open brackets need one entry for every 255 brackets of each run of equal brackets.", "quantifier": "every text, every set of flags, every capacity", "why_tests_cant": "texts, nesting and capacities are unbounded", "anchors": ["tm_json.h: jsonNextToken, jsonPushContext, jsonPopContext"]}
{"id": "C77", "title": "Tokens have matching brackets, and there is an end of them", "statement": "The tokens that jsonNextToken returns, up to JTOK_EOF or JTOK_ERROR, have matching brackets: they can be completed to a balanced sequence, and they are balanced at JTOK_EOF. One of the two is returned after finitely many calls.", "quantifier": "every text, every set of flags, every capacity", "why_tests_cant": "texts are unbounded and need not be JSON", "anchors": ["tm_json.h: jsonNextToken, jsonPushContext, jsonPopContext"]}
{"id": "C78", "title": "Reading tokens is memory safe", "statement": "Calling jsonNextToken until JTOK_EOF or JTOK_ERROR reads only bytes of the text, and fails no assertion.", "quantifier": "every text, every capacity, plain flags", "why_tests_cant": "texts are unbounded and need not be JSON", "anchors": ["tm_json.h: jsonNextToken, jsonNextTokenImplicit, readNumber"]}
{"id": "C79", "title": "Guillotine packing never overlaps", "statement": "After any history of guillotineInsertChoice, guillotineInsertBatch, guillotineMergeFreeRects and binPackClear, the placed rectangles lie in the bin, have positive sizes and share no cell. An insertion reports the rectangle it added, with the requested size, turned only if that was allowed; a rectangle that is not placed leaves the pack unchanged.", "quantifier": "every bin size whose area is representable, every memory that suffices by the documented sizes, every history, every heuristic and split rule, all positive rectangle sizes", "why_tests_cant": "histories and sizes are unbounded", "anchors": ["tm_bin_packing.h: guillotineInsertChoice, guillotineInsert, guillotineInsertBatch, guillotineMergeFreeRects, binPackClear"]}
{"id": "C80", "title": "Guillotine packing loses no space", "statement": "After any history every cell of the bin lies in exactly one of the free and the placed rectangles, and the used area is the sum of the areas of the placed rectangles.", "quantifier": "every bin size whose area is representable, every history of insertions, batches, merges and clears", "why_tests_cant": "histories are unbounded", "anchors": ["tm_bin_packing.h: guillotineInsert, guillotineSplitFreeRect, guillotineMergeFreeRects"]}
{"id": "C81", "title": "Guillotine insertion finds the best free rectangle", "statement": "guillotineInsertChoice places a rectangle if and only if it fits into one of the free rectangles, and then into one that it fills exactly, or else into one that leaves the least by the chosen rule.", "quantifier": "every pack that a history leads to and that has memory for one more rectangle by the documented sizes, all positive rectangle sizes, every rule, with and without turning", "why_tests_cant": "packs are unbounded", "anchors": ["tm_bin_packing.h: guillotineChoice, guillotineBestAreaFit, guillotineBestShortSideFit, guillotineBestLongSideFit, guillotineInsertChoice"]}
{"id": "C82", "title": "The documented memory suffices for guillotine packing", "statement": "With memory for guillotineFreeRectsSize(n) free and n placed rectangles no history with at most n insertions runs out of memory, overflows an integer or fails an assertion; with memory that grows no history does.", "quantifier": "every n from 1, every bin size whose area is representable, every history with positive sizes", "why_tests_cant": "n and the history are unbounded", "anchors": ["tm_bin_packing.h: guillotineFreeRectsSize, binPackCreateStatic, binPackCreateEx"]}
{"id": "C83", "title": "A guillotine batch is a greedy sequence of insertions", "statement": "guillotineInsertBatch does what inserting the rectangle with the best place again and again does, until none of the remaining fits. The dimensions are permuted: those left over first, then the placed ones in reverse order of the results, which carry their user data.", "quantifier": "every pack that a history leads to and that has memory for the batch by the documented sizes, every batch of positive sizes, every rule", "why_tests_cant": "batches are unbounded", "anchors": ["tm_bin_packing.h: guillotineInsertBatch"]}
{"id": "C84", "title": "Clearing and resetting a pack", "statement": "binPackClear makes the pack empty with the whole bin free, and binPackReset does so for another size, which the pack has from then on.", "quantifier": "every reachable pack, every size, every later history", "why_tests_cant": "histories before and after are unbounded", "anchors": ["tm_bin_packing.h: binPackClear, binPackReset"]}
{"id": "C85", "title": "Guillotine packing does not overflow integers", "statement": "For every bin whose sides are representable, no use of the guillotine functions computes a number that is not representable.", "quantifier": "every bin size, every history", "why_tests_cant": "sizes up to 2^31 are too many to try", "anchors": ["tm_bin_packing.h: guillotineScoreBestAreaFit, guillotineInsert"]}
{"id": "C86", "title": "MaxRects packing stays in the bin and keeps sizes", "statement": "After any history of maxRectsInsertChoice and binPackClear the placed rectangles lie in the bin and have positive sizes, and the used area is the sum of their areas. An insertion reports the rectangle it added, with the requested size, turned only if allowed; a rectangle that is not placed leaves the pack unchanged.", "quantifier": "every bin size, every history with positive sizes that ends without a fault, every rule", "why_tests_cant": "histories are unbounded", "anchors": ["tm_bin_packing.h: maxRectsInsertChoice, maxRectsInsert, maxRectsSplitFreeNode, maxRectsPruneFreeRects"]}
{"id": "C87", "title": "MaxRects packing never overlaps", "statement": "After any history of maxRectsInsertChoice and binPackClear the placed rectangles share no cell, so that at most the area of the bin is used.", "quantifier": "every bin size, every history with positive sizes that ends without a fault, every rule", "why_tests_cant": "histories are unbounded", "anchors": ["tm_bin_packing.h: maxRectsInsert, maxRectsSplitFreeNode, maxRectsOccupancy"]}
{"id": "C88", "title": "MaxRects finds a place if there is one anywhere", "statement": "maxRectsInsertChoice places a rectangle if and only if somewhere in the bin there is room for it that no placed rectangle covers; the free rectangles are exactly the maximal empty ones.", "quantifier": "every reachable pack, all positive rectangle sizes for which the insertion ends without a fault, every rule, with and without turning", "why_tests_cant": "packs are unbounded", "anchors": ["tm_bin_packing.h: maxRectsInsertChoice, maxRectsInsert, maxRectsPruneFreeRects"]}
{"id": "C89", "title": "MaxRects insertion takes the best place", "statement": "A rectangle is placed if and only if it fits into one of the free rectangles of the pack, and then at the corner of one such that no other free rectangle and no other allowed orientation ranks better by the chosen rule.", "quantifier": "every reachable pack, all positive rectangle sizes for which the insertion ends without a fault, every rule, with and without turning", "why_tests_cant": "packs are unbounded", "anchors": ["tm_bin_packing.h: maxRectsChoice, maxRectsChoiceNoFlip, maxRectsContactPointRule, maxRectsBottomLeftRule"]}
{"id": "C90", "title": "The documented memory suffices for MaxRects", "statement": "With memory for maxRectsFreeRectsSize(n) free and n placed rectangles no history of at most n insertions runs out of memory or reads outside of its memory, and with memory that grows no history does.", "quantifier": "every n, every bin size whose area is representable, every history", "why_tests_cant": "n and the history are unbounded", "anchors": ["tm_bin_packing.h: maxRectsFreeRectsSize, maxRectsInsert, tmbp_push"]}
{"id": "C91", "title": "A MaxRects batch inserts in the order of the ranks", "statement": "maxRectsInsertBatch does what inserting rectangles one by one does, always the one with the best place by the rule, until none of the remaining fits. The dimensions are permuted: those left over first, then the placed ones in reverse order of the results, which carry their user data.", "quantifier": "every reachable pack, every batch for which it ends, every rule", "why_tests_cant": "batches are unbounded", "anchors": ["tm_bin_packing.h: maxRectsInsertBatch"]}
{"id": "C92", "title": "Looking for a place in a MaxRects pack does not overflow", "statement": "maxRectsChoice computes only representable numbers, for every rectangle and every bin with representable sides.", "quantifier": "every reachable pack, every rectangle, every rule", "why_tests_cant": "sizes up to 2^31 are too many to try", "anchors": ["tm_bin_packing.h: maxRectsBestAreaFit, maxRectsContactPointScore"]}
{"id": "C93", "title": "The rest of a free rectangle is cut as the split rule says", "statement": "A guillotine insertion that places a rectangle takes exactly one free rectangle away and adds the non-empty parts that are left below and beside the placed one. The cut is horizontal or vertical as the GuillotineSplitHeuristic demands: by the leftover sides, by the sides of the free rectangle, or so that the smaller of both parts is as small or as large as possible. All other free rectangles stay.", "quantifier": "every reachable pack, every size, every fit and split rule, with and without turning", "why_tests_cant": "packs and sizes are unbounded", "anchors": ["tm_bin_packing.h: guillotineSplitFreeRectByHeuristic, GuillotineSplitHeuristic"]}
{"id": "C94", "title": "Merging joins something if anything can be joined", "statement": "guillotineMergeFreeRects leaves the placed rectangles and the set of free cells as they are. If no two free rectangles are together a rectangle it changes nothing, and else there are fewer free rectangles afterwards.", "quantifier": "every reachable pack", "why_tests_cant": "packs are unbounded", "anchors": ["tm_bin_packing.h: guillotineMergeFreeRects"]}
{"id": "C95", "title": "After merging nothing can be joined any more", "statement": "After guillotineMergeFreeRects no two free rectangles are together a rectangle.", "quantifier": "every reachable pack", "why_tests_cant": "packs are unbounded", "anchors": ["tm_bin_packing.h: guillotineMergeFreeRects"]}
{"id": "C96", "title": "A small_vector is a list", "statement": "After any history of push_back, insert (value, moved value, n copies, range), emplace, emplace_back, pop_back, erase, clear, resize, reserve and assign, each called with valid positions, with values or references to own elements (for emplace and emplace_back: values), with positive numbers of copies, whatever heap requests fail, no assertion fails, no access is out of bounds, no object is used before its construction or after its destruction or constructed twice, no block is freed twice, and size() and operator[] give exactly the elements that the same operations give for a list; where an operation fails, what the list operation for the failure gives (see C100).", "quantifier": "every element type (trivial or not) with any size, every small buffer size, with or without allocator, every history, every pattern of failing allocations, as long as twice the bytes of the elements asked for can be addressed", "why_tests_cant": "histories and allocation failures are unbounded", "anchors": ["tm_small_vector.h: small_vector, small_vector_base, static_vector_base, small_vector_common, grow_by, make_room, insert, erase, assign, resize, emplace"]}
{"id": "C97", "title": "An operation of a small_vector succeeds when there is memory or room", "statement": "If the heap grants every request, every operation of C96 on a vector with an allocator reports success and has the effect it has on a list. If the elements after the operation (for reserve: those asked for) fit the capacity, the operation succeeds, makes no request to the heap, and leaves data() and capacity() as they are, so that pointers to the storage stay valid.", "quantifier": "as C96", "why_tests_cant": "histories are unbounded", "anchors": ["tm_small_vector.h: grow_by, make_room, reserve, assign"]}
{"id": "C98", "title": "A static_vector takes exactly what fits", "statement": "On a vector without an allocator, an operation of C96 other than reserve reports success exactly if the number of elements after it is at most capacity().", "quantifier": "every history of a vector without an allocator", "why_tests_cant": "histories are unbounded", "anchors": ["tm_small_vector.h: static_vector_base, static_vector"]}
{"id": "C99", "title": "The destructor of a small_vector releases exactly what the vector owns", "statement": "After any history of C96 the destructor destroys every element exactly once and frees the vector's block, so that the heap has exactly the blocks it had before the vector was made.", "quantifier": "as C96", "why_tests_cant": "histories and allocation failures are unbounded", "anchors": ["tm_small_vector.h: destroy, ~small_vector_base"]}
{"id": "C100", "title": "A failed operation of a small_vector changes nothing", "statement": "If an operation of C96 reports that there was no memory, the vector has the same elements as before.", "quantifier": "as C96", "why_tests_cant": "histories and allocation failures are unbounded", "anchors": ["tm_small_vector.h: push_back, insert, assign, grow_by"]}
{"id": "C101", "title": "reserve gives the capacity asked for", "statement": "If reserve(count) returns true, then capacity() is at least count and the elements are the same.", "quantifier": "every history of C96, every count", "why_tests_cant": "histories are unbounded", "anchors": ["tm_small_vector.h: reserve, grow_by, get_next_capacity"]}
{"id": "C102", "title": "push_back makes few requests to the heap", "statement": "Adding n elements one by one to a new vector makes k requests to the heap with k = 0 or 3^k <= 3 * 2^k * n, that is, at most 1 + log base 3/2 of n; the vector then has exactly these elements.", "quantifier": "every list of elements, every small buffer size, a heap that grants every request", "why_tests_cant": "n is unbounded", "anchors": ["tm_small_vector.h: push_back, grow_by, get_next_capacity"]}
{"id": "C103", "title": "Copies of a small_vector have its elements", "statement": "A vector that is constructed from another one, or to which another one is assigned, has the elements of the other one; if memory was needed and not granted, it is empty. The other one is unchanged, and destroying both leaves the heap as it was before both were made.", "quantifier": "every two histories of C96, every pattern of failing allocations", "why_tests_cant": "histories are unbounded", "anchors": ["tm_small_vector.h: small_vector(const base&), operator=, assign"]}
{"id": "C104", "title": "A moved small_vector hands over its elements", "statement": "A vector that is constructed from an expiring one, or to which an expiring one is assigned, has the elements of the other one, which is empty afterwards. If the other one has its elements on the heap, then the block is handed over: no request is made, and elements keep their addresses. If memory was needed and not granted, both are empty. Destroying both leaves the heap as it was before both were made.", "quantifier": "every two histories of C96, every pattern of failing allocations", "why_tests_cant": "histories are unbounded", "anchors": ["tm_small_vector.h: small_vector(base&&), operator=(base&&)"]}
{"id": "C105", "title": "swap exchanges two small_vectors", "statement": "swap exchanges the elements of two vectors, and both can be used and destroyed afterwards.", "quantifier": "every two histories of C96", "why_tests_cant": "histories are unbounded", "anchors": ["tm_small_vector.h: swap"]}
{"id": "C106", "title": "Inserting or assigning nothing is allowed", "statement": "insert(pos, 0, value) and the insertion of an empty range leave every vector as it is, and assign(0, value) empties it.", "quantifier": "every history of C96, every position", "why_tests_cant": "histories are unbounded", "anchors": ["tm_small_vector.h: insert, assign, make_room"]}
{"id": "C107", "title": "emplace takes references to own elements", "statement": "emplace(pos, v[i]) and emplace_back(v[i]) insert a copy of the value that v[i] had before the call.", "quantifier": "every history of C96, every position and index", "why_tests_cant": "histories are unbounded", "anchors": ["tm_small_vector.h: emplace, emplace_back"]}
{"id": "C108", "title": "The storage of a small_vector has room for its capacity", "statement": "After every operation that reports success, the storage has room for capacity() elements, and capacity() is at least size(). A reserve whose bytes cannot be addressed fails.", "quantifier": "every history, every count", "why_tests_cant": "counts are unbounded", "anchors": ["tm_small_vector.h: create, grow_by, reserve"]}
{"id": "C109", "title": "A static_vector keeps its capacity", "statement": "No operation of C96 changes the capacity of a vector without an allocator.", "quantifier": "every history of a vector without an allocator", "why_tests_cant": "histories are unbounded", "anchors": ["tm_small_vector.h: static_vector_base, assign_n"]}
{"id": "C110", "title": "64 bit integers in a document are read exactly", "statement": "jsonGetInt64 and jsonGetUInt64 of a value that is written as an integer, as a number or within quotation marks, return that integer if it is representable in the type, and the default value otherwise. They do not fault.", "quantifier": "every integer in JSON notation of any length, including -0, and every default value", "why_tests_cant": "unboundedly many texts; boundaries of the type and of an internal buffer of 64 bytes", "anchors": ["tm_json.h: jsonGetInt64, jsonGetUInt64, jsonToInt64, jsonToUInt64, tmj_to_int64, tmj_to_uint64"]}
{"id": "C111", "title": "32 bit integers in a document are read exactly", "statement": "jsonGetInt and jsonGetUInt of a value that is written as an integer return that integer if it is representable in 32 bits, and the default value otherwise.", "quantifier": "every integer in JSON notation of any length and every default value", "why_tests_cant": "unboundedly many texts", "anchors": ["tm_json.h: jsonGetInt, jsonGetUInt, jsonToInt, jsonToUInt, tmj_to_int, tmj_to_uint"]}
{"id": "C112", "title": "Hexadecimal numbers in a document are read exactly", "statement": "The functions for integers return the value of a number that is written as 0x and hexadecimal digits if it is representable, and the default value otherwise, without a fault.", "quantifier": "every sequence of hexadecimal digits", "why_tests_cant": "unboundedly many texts", "anchors": ["tm_json.h: jsonToInt, jsonToUInt, jsonToInt64, jsonToUInt64"]}
{"id": "C113", "title": "Booleans are read from every value", "statement": "jsonGetBool returns the value of a boolean; of numbers and strings, true for 1 and for true in letters of any case, false for 0 and for false in letters of any case, and the default value for all others. jsonGetBool and the functions for integers return the default value for null, objects and arrays.", "quantifier": "every value of a document, every text", "why_tests_cant": "unboundedly many texts", "anchors": ["tm_json.h: jsonGetBool, jsonToBool, jsonGetInt, jsonGetUInt, jsonGetInt64, jsonGetUInt64"]}
{"id": "C114", "title": "A lookup in an object finds a member exactly if there is one", "statement": "Whatever has been looked up in an object before, jsonGetMember, jsonQueryMember and their cached variants find a member with the given name if the object has one, and nothing otherwise. They read nothing outside the object.", "quantifier": "every object, every history of lookups, every state of the cache within the object", "why_tests_cant": "objects and histories are unbounded", "anchors": ["tm_json.h: jsonGetMember, jsonQueryMember, jsonGetMemberCached, jsonQueryMemberCached"]}
{"id": "C115", "title": "Lookups do not influence each other", "statement": "Which member a lookup finds depends only on the object and the name, not on earlier lookups.", "quantifier": "every object, every history of lookups", "why_tests_cant": "objects and histories are unbounded", "anchors": ["tm_json.h: jsonQueryMemberCached"]}
{"id": "C116", "title": "A JSON pointer gives the value it refers to", "statement": "jsonResolveJsonPointer returns the value that a JSON pointer refers to by RFC 6901, in its string or fragment identifier representation, and null without a text if it refers to nothing or the text is no JSON pointer.", "quantifier": "every document and every text", "why_tests_cant": "documents and pointers are unbounded", "anchors": ["tm_json.h: jsonResolveJsonPointer"]}
{"id": "C117", "title": "JSON pointers are safe for every text", "statement": "For every text, jsonResolveJsonPointer stays within its buffer and the document, releases all memory it allocates, also when an allocation fails, and returns the given value, a part of it, or null without a text.", "quantifier": "every value of a document, every text, every pattern of failing allocations, every initial content of memory", "why_tests_cant": "texts and failure patterns are unbounded", "anchors": ["tm_json.h: jsonResolveJsonPointer"]}
{"id": "C118", "title": "A work is executed at most once", "statement": "The procedure of a work that was pushed to the thread pool is called at most once.", "quantifier": "every number of worker threads, every sequence of calls with handles that are in use, every interleaving of the threads and every expiry of a time limit", "why_tests_cant": "interleavings are unbounded", "anchors": ["tm_async.h: tma_push_async_work, tma_dispatch_async_work, tma_wait_single, tma_free_async_work"]}
{"id": "C119", "title": "After a successful wait the work is done", "statement": "When tma_wait_single or tma_wait_single_for returns TM_OK the procedure of the work has returned.", "quantifier": "every number of worker threads, every sequence of calls with handles that are in use, every interleaving of the threads and every expiry of a time limit", "why_tests_cant": "interleavings are unbounded", "anchors": ["tm_async.h: tma_wait_single, tma_wait_single_for"]}
{"id": "C120", "title": "No work is lost", "statement": "When the threads of a pool with at least one worker thread have nothing left to do, every work that was successfully handed to them has been executed.", "quantifier": "every number of worker threads, every sequence of calls with handles that are in use, every interleaving of the threads and every expiry of a time limit", "why_tests_cant": "interleavings are unbounded; the queue has to be full or a thread has to stall in the middle of an operation", "anchors": ["tm_async.h: tma_push_async_work, tma_dispatch_async_work"]}
{"id": "C121", "title": "Calls return", "statement": "Every call of the main thread returns once the threads were scheduled often enough and all procedures have returned.", "quantifier": "every number of worker threads, every sequence of calls with handles that are in use, every interleaving of the threads and every expiry of a time limit", "why_tests_cant": "a deadlock or livelock depends on the interleaving", "anchors": ["tm_async.h: tma_push_async_work, tma_dispatch_async_work, tma_wait_single, tma_free_async_work"]}
{"id": "C122", "title": "Freed works make room for new ones", "statement": "tma_push_async_work succeeds whenever fewer than 256 works are in use, without memory having to be allocated, or if memory can be allocated.", "quantifier": "every number of worker threads, every sequence of calls with handles that are in use, every interleaving of the threads and every expiry of a time limit", "why_tests_cant": "the history of pushed and freed works is unbounded", "anchors": ["tm_async.h: tma_push_async_work, tma_free_async_work"]}
{"id": "C123", "title": "Handles of works in use are different", "statement": "The handle that tma_push_async_work returns is not the handle of another work that was not freed.", "quantifier": "every number of worker threads, every sequence of calls with handles that are in use, every interleaving of the threads and every expiry of a time limit", "why_tests_cant": "the history of pushed and freed works is unbounded", "anchors": ["tm_async.h: tma_push_async_work, tma_free_async_work"]}
{"id": "C124", "title": "Freeing a work ends it", "statement": "When tma_free_async_work returns, the procedure of the work has returned if it was called, and it is not called afterwards; a work that was not started can be freed.", "quantifier": "every number of worker threads, every sequence of calls with handles that are in use, every interleaving of the threads and every expiry of a time limit", "why_tests_cant": "interleavings are unbounded", "anchors": ["tm_async.h: tma_free_async_work"]}
{"id": "C125", "title": "Progress and cancellation reach the right work", "statement": "tma_get_progress returns the value that the procedure of the work reported last, zero if there is none; tma_is_cancelled returns true in the procedure of a work if and only if tma_cancel was called for this work.", "quantifier": "every number of worker threads, every sequence of calls with handles that are in use, every interleaving of the threads and every expiry of a time limit", "why_tests_cant": "interleavings are unbounded", "anchors": ["tm_async.h: tma_get_progress, tma_report_progress, tma_cancel, tma_is_cancelled"]}
{"id": "C126", "title": "Handles carry an index or an error", "statement": "The handle made for an index is valid, gives back the index and no error code; the handle made for an error code is not valid and gives back the error code. Neither overflows.", "quantifier": "every index from 0 to 2147483646, every positive error code", "why_tests_cant": "the range is too large to enumerate in practice", "anchors": ["tm_async.h: tma_make_async_handle_errc, tma_make_async_handle_index, tma_async_handle_get_index, tma_is_async_handle_valid, tma_get_error_code"]}
{"id": "C127", "title": "No call goes wrong", "statement": "No assertion fails, no access is out of bounds and no missing procedure is called, as long as handles are used between the push and the free of their works.", "quantifier": "every number of worker threads, every sequence of calls with handles that are in use, every interleaving of the threads and every expiry of a time limit", "why_tests_cant": "interleavings are unbounded", "anchors": ["tm_async.h: tma_push_async_work, tma_dispatch_async_work, tma_wait_single, tma_wait_single_for, tma_free_async_work, tma_get_progress, tma_cancel, tma_report_progress, tma_is_cancelled"]}
{"id": "C128", "title": "Escaped text is given back", "statement": "tmxml_unescape_string turns every escaped form of a text into this text, byte for byte, followed by a null terminator, if the buffer is large enough and no trimming is asked for. Escaped forms mix characters, the five predefined entities, decimal and hexadecimal character references in any order.", "quantifier": "every text of XML characters, every escaped form of it, every buffer that is larger than the text", "why_tests_cant": "texts and their escaped forms are unbounded", "anchors": ["tm_xml.h: tmxml_unescape_string"]}
{"id": "C129", "title": "Only escaped text is accepted", "statement": "If tmxml_unescape_string returns true, the string is an escaped form of some text of XML characters: no bare ampersand or angle bracket, no reference to a character that XML does not have.", "quantifier": "every string of bytes, every buffer", "why_tests_cant": "strings are unbounded", "anchors": ["tm_xml.h: tmxml_unescape_string"]}
{"id": "C130", "title": "The reported size can be relied on", "statement": "Data was completely written if and only if *out_written < out_len; otherwise *out_written is the size of a buffer that is large enough.", "quantifier": "every string, all flags, every two sizes of the buffer", "why_tests_cant": "strings and sizes are unbounded", "anchors": ["tm_xml.h: tmxml_unescape_string"]}
{"id": "C131", "title": "Unescaping stays inside the string and the buffer", "statement": "tmxml_unescape_string ends for every string, reads no byte outside of str[0..len) and writes at most out_len bytes.", "quantifier": "every string, all flags, every size of the buffer", "why_tests_cant": "an access that is out of bounds need not be visible in a test", "anchors": ["tm_xml.h: tmxml_unescape_string"]}
{"id": "C132", "title": "Whitespace is trimmed as the flags say", "statement": "trim_left and trim_right take away the whitespace at the ends, reduce_spaces turns every run of whitespace into one space, trim_newlines turns every newline into a space, and everything else is kept.", "quantifier": "every text, every combination of the flags", "why_tests_cant": "texts are unbounded", "anchors": ["tm_xml.h: tmxml_unescape_string"]}
{"id": "C133", "title": "The end of reading is final", "statement": "Once tmxml_next_token has delivered the end of the document or an error, the next call returns false; once a call has returned false, all later calls return false and the reader stays in the context in which it ended.", "quantifier": "every document, all flags, every history of calls, every pattern of failing allocations", "why_tests_cant": "documents and histories are unbounded", "anchors": ["tm_xml.h: tmxml_next_token"]}
{"id": "C134", "title": "The reading loop ends", "statement": "The loop `while (tmxml_next_token(&reader))` ends after at most one token more than the document has bytes.", "quantifier": "every document, all flags, every pattern of failing allocations", "why_tests_cant": "non-termination for some document cannot be excluded by running others", "anchors": ["tm_xml.h: tmxml_next_token, tmxml_read_prolog"]}
{"id": "C135", "title": "Accepted documents are well-formed", "statement": "If the loop over tmxml_next_token ends and the context is not that of an error, the delivered tokens are those of a well-formed document: one root element, comments and processing instructions around it, all opening tags with their attributes followed by their contents and a closing tag of the same name, properly nested.", "quantifier": "every document, all flags, every pattern of failing allocations", "why_tests_cant": "documents and their depth are unbounded", "anchors": ["tm_xml.h: tmxml_next_token, tmxml_read_prolog"]}
{"id": "C136", "title": "Reading is memory safe", "statement": "tmxml_read_prolog and tmxml_next_token end, read no byte behind the null terminator of the document and fail no assertion.", "quantifier": "every document, all flags, every history of calls, every pattern of failing allocations", "why_tests_cant": "an access that is out of bounds need not be visible in a test, documents are unbounded", "anchors": ["tm_xml.h: tmxml_next_token, tmxml_read_prolog, tmxml_unescape_current_token, tmxml_process_cdata"]}
{"id": "C137", "title": "Locations are right", "statement": "The line of a token is the number of newlines in front of it, the column the number of bytes behind the last newline, the offset the number of bytes in front of it.", "quantifier": "every document, every token", "why_tests_cant": "documents are unbounded, the state is carried over from token to token", "anchors": ["tm_xml.h: tmxml_next_token, tmxml_lex_skip_whitespace, tmxml_lex_parse_until"]}
{"id": "C138", "title": "Well-formed documents are read as what they are", "statement": "Calling tmxml_next_token until it returns false delivers exactly the tokens of a well-formed document, in order: tags, names and values of attributes, texts, CDATA sections, comments and processing instructions, each with its text (references replaced) and its line, and then the end.", "quantifier": "every well-formed document without a prolog, of any size and depth", "why_tests_cant": "documents and their depth are unbounded", "anchors": ["tm_xml.h: tmxml_next_token"]}
{"id": "C139", "title": "The XML declaration is read", "statement": "tmxml_read_prolog reads version, encoding and standalone of every XML declaration, rejects what is not one, and leaves the reader in front of the document.", "quantifier": "every XML declaration with any whitespace and quotes, every document behind it", "why_tests_cant": "values, whitespace and documents are unbounded", "anchors": ["tm_xml.h: tmxml_read_prolog, tmxml_next_token"]}
{"id": "C140", "title": "Document types are skipped", "statement": "tmxml_read_prolog skips a document type, and the comments in front of it, and leaves the reader behind it.", "quantifier": "every well-formed document type, every document behind it", "why_tests_cant": "document types and documents are unbounded", "anchors": ["tm_xml.h: tmxml_read_prolog, tmxml_next_token"]}
{"id": "C141", "title": "Copies are complete", "statement": "tmxml_copy_string returns a null-terminated copy of the string, or NULL if there is no memory.", "quantifier": "every string, whether or not memory can be allocated", "why_tests_cant": "strings are unbounded; a missing terminator need not be visible", "anchors": ["tm_xml.h: tmxml_copy_string"]}
{"id": "C142", "title": "Parsing a command line delivers what it says", "statement": "When tmcli_next has returned false without an error, the options and free arguments that were delivered, in order, are exactly what the words up to a standalone \"--\" (or all words) spell by the usual conventions (-abc, -ovalue, -o=value, -o value, --name, --name=value, --name value, free arguments), each option being the first one declared with the name, and tmcli_get_remaining_args gives the words behind the \"--\".", "quantifier": "every list of options, every command line, with and without free arguments", "why_tests_cant": "command lines, groups of short options and lists of options are unbounded", "anchors": ["tm_cli.h: tmcli_next, tmcli_get_remaining_args"]}
{"id": "C143", "title": "Command lines that follow the conventions are accepted", "statement": "If a command line spells options and free arguments by the usual conventions, each with a valid argument where it has to have one and none given too often, tmcli_next delivers exactly these and ends without an error. A command line that ends with an error is not such a one.", "quantifier": "every list of options, every command line that spells them", "why_tests_cant": "command lines and their combinations of options are unbounded", "anchors": ["tm_cli.h: tmcli_next, tmcli_get_remaining_args"]}
{"id": "C144", "title": "Delivered options are as declared", "statement": "Every option that tmcli_next delivers is one of the declared options, has an argument only if it takes one, has one that is not empty if it requires one, and its argument satisfies the validator. Free arguments are words of the command line and delivered only if they are allowed.", "quantifier": "every list of options, every command line, every call, also in front of an error", "why_tests_cant": "arguments and the ways to give them are unbounded", "anchors": ["tm_cli.h: tmcli_next"]}
{"id": "C145", "title": "Options are not delivered more often than allowed", "statement": "An option is never delivered more often than its maximum amount (once if that is 0 or 1).", "quantifier": "every list of options, every command line", "why_tests_cant": "the number of repetitions and their positions are unbounded", "anchors": ["tm_cli.h: tmcli_next"]}
{"id": "C146", "title": "Outputs and counters", "statement": "After every call of tmcli_next that returned true, and after one that returned false without an error, the counters were incremented once for each delivery of their option and the outputs were assigned, or-ed or added as often as their option was delivered, in order. Nothing else was written.", "quantifier": "every list of options, also with shared outputs, every command line, every initial memory", "why_tests_cant": "which cells alias and how often options are given is unbounded", "anchors": ["tm_cli.h: tmcli_next"]}
{"id": "C147", "title": "Required options are checked", "statement": "tmcli_validate returns true exactly if there was no error and every required option was delivered.", "quantifier": "every list of up to 128 options, every command line", "why_tests_cant": "which of the options are given is unbounded", "anchors": ["tm_cli.h: tmcli_validate, tmcli_next"]}
{"id": "C148", "title": "Parsing is safe", "statement": "For options that tmcli_make_parser accepts, no call of tmcli_next, tmcli_validate or tmcli_get_remaining_args fails an assertion, reads out of bounds or dereferences a null pointer.", "quantifier": "every list of options with a name each, every command line", "why_tests_cant": "faults need a certain combination of options and words", "anchors": ["tm_cli.h: tmcli_make_parser_ex, tmcli_next, tmcli_validate, tmcli_get_remaining_args"]}
{"id": "C149", "title": "Parsing ends", "statement": "Calling tmcli_next again and again returns false after finitely many calls (or is a fault of C148), and not more options are delivered than there are characters and words.", "quantifier": "every list of options, every command line", "why_tests_cant": "command lines are unbounded", "anchors": ["tm_cli.h: tmcli_next"]}
{"id": "C150", "title": "Errors are reported once", "statement": "If tmcli_next returns false because of an error, exactly one message was written to the log (if there is one) and the error is set; otherwise nothing was written. The same for tmcli_validate.", "quantifier": "every list of options, every command line, with and without a log", "why_tests_cant": "every combination of options has its own ways to be wrong", "anchors": ["tm_cli.h: tmcli_next, tmcli_validate"]}
{"id": "C151", "title": "Validators accept exactly the numbers", "statement": "CLI_ARGUMENT_UINT accepts exactly the non-empty sequences of digits, CLI_ARGUMENT_INT these with an optional minus sign, CLI_ARGUMENT_FLOAT an optional minus sign, a whole number without superfluous zeros, an optional fraction and an optional exponent.", "quantifier": "every string", "why_tests_cant": "strings are unbounded", "anchors": ["tm_cli.h: CLI_ARGUMENT_UINT, CLI_ARGUMENT_INT, CLI_ARGUMENT_FLOAT"]}
{"id": "C152", "title": "Minimum and maximum", "statement": "min, max and minmax of two or three values, with operator< or with a compare functor, give one of the values (minmax of two gives both), such that no value is less than the minimum or greater than the maximum.", "quantifier": "every type, every strict weak order, also with values that are equivalent but not equal", "why_tests_cant": "types, orders and values are unbounded", "anchors": ["tm_utility.h: min, max, minmax"]}
{"id": "C153", "title": "Median and clamp", "statement": "median gives the middle one of the three values in order. clamp gives a value that is not below the lower and not above the upper bound: the value itself if it is between them, otherwise the bound it is beyond.", "quantifier": "every type, every strict weak order, all values; for clamp, a lower bound that is not above the upper one", "why_tests_cant": "types, orders and values are unbounded", "anchors": ["tm_utility.h: median, clamp"]}
{"id": "C154", "title": "Powers of two and alignment", "statement": "isPowerOfTwo is true exactly for the powers of two. For an alignment that is one, getAlignmentOffset gives the least offset that makes the address a multiple of the alignment, and for others it fails an assertion.", "quantifier": "every number, every address, every alignment", "why_tests_cant": "there are 2^64 numbers and 2^128 pairs of address and alignment", "anchors": ["tm_utility.h: isPowerOfTwo, isAligned, getAlignmentOffset"]}
{"id": "C155", "title": "Mapping to a range", "statement": "mapToRange gives a number in [min, max), and almost fairly: of all values of type int, each number in the range gets 2^32 / (max - min), rounded down or one more.", "quantifier": "every value, every non-empty range of int", "why_tests_cant": "there are 2^96 triples, and fairness is about all values at once", "anchors": ["tm_utility.h: mapToRange"]}
{"id": "C156", "title": "Byte order", "statement": "swapEndian reverses the bytes of a number of 16, 32 or 64 bits, and calling it twice gives the number back.", "quantifier": "every number", "why_tests_cant": "there are 2^64 numbers", "anchors": ["tm_utility.h: swapEndian"]}
{"id": "C157", "title": "Testing and filling memory", "statement": "isMemoryZero is true exactly if all bytes of the range are zero. fill sets all values of the range and no others.", "quantifier": "every memory, every non-empty range (for fill also an empty one)", "why_tests_cant": "memories and ranges are unbounded", "anchors": ["tm_utility.h: isMemoryZero, fill"]}
{"id": "C158", "title": "Upper and lower case", "statement": "toupper and tolower change the 26 letters of the other case into the same letter and nothing else. Two characters are the same in upper case exactly if they are in lower case.", "quantifier": "every code point, every pair of code points", "why_tests_cant": "there are 2^64 pairs", "anchors": ["tm_utility.h: toupper, tolower"]}
{"id": "C159", "title": "Array views: the end of a view", "statement": "push_back appends a value, pop_back removes the last one, and both fail an assertion if there is no room or no value; try_push_back and try_pop_back do the same or return false. operator[], at, front and back give the values of the view or fail an assertion.", "quantifier": "every memory, every view of a part of it, every reference, also to values of the view itself", "why_tests_cant": "memories, views and references are unbounded", "anchors": ["tm_arrayview.h: UninitializedArrayView::push_back, UninitializedArrayView::pop_back, UninitializedArrayView::try_push_back, UninitializedArrayView::try_pop_back, UninitializedArrayView::at, UninitializedArrayView::front, UninitializedArrayView::back"]}
{"id": "C160", "title": "Array views: insertion", "statement": "insert puts as many copies of a value as there is room for, or a whole range that there is room for, in front of a position; the values behind move up. Ranges without room fail an assertion.", "quantifier": "every view, every position, every number of copies, every reference and every range, also of values of the view itself", "why_tests_cant": "views and positions are unbounded, and sources may overlap the view in every way", "anchors": ["tm_arrayview.h: UninitializedArrayView::insert, UninitializedArrayView::append"]}
{"id": "C161", "title": "Array views: erasure", "statement": "erase removes the value at a position or those of a range; the values behind move down. Other positions fail an assertion.", "quantifier": "every view, every position, every range", "why_tests_cant": "views and positions are unbounded", "anchors": ["tm_arrayview.h: UninitializedArrayView::erase"]}
{"id": "C162", "title": "Array views: assignment and size", "statement": "assign makes the values of the view those of a range that does not overlap with it, or as many copies of a value as there is room for. resize, grow, clear and emplace_back change the size alone, so that values become visible as they are in memory, and fail an assertion beyond the capacity.", "quantifier": "every view, every range, every number, every reference, also to values of the view itself", "why_tests_cant": "views and ranges are unbounded", "anchors": ["tm_arrayview.h: UninitializedArrayView::assign, UninitializedArrayView::resize, UninitializedArrayView::grow, UninitializedArrayView::clear, UninitializedArrayView::emplace_back"]}
{"id": "C163", "title": "Array views stay in their memory", "statement": "As long as no call fails an assertion, the size of a view does not exceed its capacity, and memory that does not belong to the view is not changed.", "quantifier": "every view, every sequence of calls with any arguments", "why_tests_cant": "sequences of calls and their arguments are unbounded", "anchors": ["tm_arrayview.h: UninitializedArrayView::insert, UninitializedArrayView::erase, UninitializedArrayView::assign, UninitializedArrayView::push_back, UninitializedArrayView::pop_back, UninitializedArrayView::resize, UninitializedArrayView::grow"]}
{"id": "C164", "title": "Grid views: indices and coordinates", "statement": "index and coordinatesFromIndex are inverse to each other between the coordinates and the indices of a grid, row by row. at and queryAt by coordinates are access to the value in that row and column; outside of the grid, at fails an assertion and queryAt gives null.", "quantifier": "every grid whose size fits into size_t, all coordinates, all indices", "why_tests_cant": "grids are unbounded", "anchors": ["tm_arrayview.h: GridView::index, GridView::coordinatesFromIndex, GridView::at, GridView::queryAt, GridView::isInBounds"]}
{"id": "C165", "title": "Array views of ranges", "statement": "makeRangeView gives a view of the values from start up to end, where bounds behind the end of the container count as its end, and never leaves the container. If end is in front of start, an assertion fails.", "quantifier": "every container, every start, every end", "why_tests_cant": "containers and bounds are unbounded", "anchors": ["tm_arrayview.h: makeRangeView"]}
{"id": "C166", "title": "Floating point numbers: which text is read", "statement": "scan_double reads the longest number that a string begins with (sign, digits, fraction, exponent) and returns its size. A string that does not begin with a number gives EINVAL and size 0; an exponent above 511 gives an error. In case of an error nothing is written.", "quantifier": "every string, every output", "why_tests_cant": "strings are unbounded, and which prefix is the longest number depends on all their chars", "anchors": ["tm_conversion.h: scan_double, scan_LeadingZeroes, scan_ScanMantissa, str_Pow10"]}
{"id": "C167", "title": "Floating point numbers: the number that is read", "statement": "The number that scan_double writes has the sign of the text and differs from the exact value of the text by at most 10^-14 of it.", "quantifier": "every string that begins with a number", "why_tests_cant": "texts, and roundings of the arithmetic for them, are too many to try", "anchors": ["tm_conversion.h: scan_double, scan_ScanMantissa, str_Pow10"]}
{"id": "C168", "title": "Floating point numbers: whole numbers are read exactly", "statement": "If the number that a string begins with is a whole number up to 2^53 without a fraction and an exponent, scan_double writes exactly this number.", "quantifier": "every string that begins with such a number, with any number of leading zeroes", "why_tests_cant": "there are more than 2^53 such strings", "anchors": ["tm_conversion.h: scan_double"]}
{"id": "C169", "title": "Floating point numbers: text with a length", "statement": "scan_double_n gives for a text with a length what scan_double gives for the string of the same chars; chars behind the text have no influence.", "quantifier": "every text, every continuation of it, every output", "why_tests_cant": "texts and what lies behind them are unbounded", "anchors": ["tm_conversion.h: scan_double_n, scan_double"]}
{"id": "C170", "title": "Floating point numbers: reading is safe", "statement": "scan_double never reads outside of the string or of its tables, never overflows and fails no assertion.", "quantifier": "every string, every output", "why_tests_cant": "strings are unbounded", "anchors": ["tm_conversion.h: scan_double, str_Pow10"]}
{"id": "C171", "title": "Floating point numbers: whole numbers are printed exactly", "statement": "print_double prints a whole number as its decimal digits, with a minus if it is negative, and with as many zeroes behind the dot as the caller asks for (at most 14; none, or \".0\" with PF_TRAILING_ZEROES, if the number of decimals is left open).", "quantifier": "every whole number that a double has, every flags, precision, buffer and room", "why_tests_cant": "there are more than 2^53 such numbers, times options and rooms", "anchors": ["tm_conversion.h: print_double, print_magnitude, tmc_print_zero_padded_u64"]}
{"id": "C172", "title": "Floating point numbers: accuracy of what is printed", "statement": "print_double prints a number as a decimal number without exponent that differs from it by at most 0.52 units of the last decimal that was asked for; its number of decimals is the one asked for, or without trailing zeroes if that is left open; without decimals a half is rounded up.", "quantifier": "every finite double, every flags and precision", "why_tests_cant": "doubles, and roundings of the arithmetic for them, are too many to try", "anchors": ["tm_conversion.h: print_double, str_Pow10, print_PowersOfTen"]}
{"id": "C173", "title": "Floating point numbers: room when printing", "statement": "print_double writes only the maxlen chars it was given. What it prints does not depend on the room: if the text fits it is written as a whole with its size returned, and otherwise EOVERFLOW is returned with size maxlen. 33 chars are enough for every number.", "quantifier": "every finite double, every flags, precision, buffer and room", "why_tests_cant": "the cross product of numbers, options and rooms is too great", "anchors": ["tm_conversion.h: print_double, tmc_print_zero_padded_u64"]}
{"id": "C174", "title": "Floating point numbers: infinities and NaN", "statement": "print_double prints \"INF\" and \"NAN\", or with PF_LOWERCASE \"inf\" and \"nan\", with a minus for negative infinities, and for a NaN with sign if PF_SIGNBIT is given; if there is no room it returns EOVERFLOW and writes nothing outside of the room.", "quantifier": "every such value, every flags, precision, buffer and room", "why_tests_cant": "flags, buffers and rooms are too many to try", "anchors": ["tm_conversion.h: print_double, tmc_print_string"]}
{"id": "C175", "title": "Floating point numbers: reading what was printed", "statement": "scan_double of what print_double printed reads all of it and gives the number back: exactly for whole numbers, and otherwise up to 0.52 units of the last decimal and 10^-14 of the number.", "quantifier": "every finite double, every flags and precision", "why_tests_cant": "doubles and options are too many to try", "anchors": ["tm_conversion.h: print_double, scan_double"]}
{"id": "C176", "title": "Formatting: the text is what the format string says", "statement": "If there is room, snprint leaves in the buffer the text of the format string with {{ and }} as single braces and each placeholder as its argument (the next one, or the one with the index), in the base, with the sign, prefix, width and justification that its specifier asks for, followed by a zero byte, and returns its length; the bytes behind keep their values.", "quantifier": "every well formed format string, every list of up to 16 arguments, every buffer with room", "why_tests_cant": "format strings, arguments and buffers are unbounded", "anchors": ["tm_print.h: snprint, tmp_snprint, tmp_print_impl, tmp_print_string_escaped, tmp_memory_printer, tmp_print_formatted, tmp_print_formatted_unsigned, tmp_print_decoration"]}
{"id": "C177", "title": "Formatting: the result is the necessary size", "statement": "snprint returns the length of the whole text whether or not it fits, also without a buffer; a text as long as the buffer loses its last char to the zero byte. So printing twice, first to find out the size, gives the whole text.", "quantifier": "every well formed format string, arguments and buffer of any size", "why_tests_cant": "the size of the buffer can cut the text anywhere, in any argument, and what is necessary is summed up in other branches of the code", "anchors": ["tm_print.h: snprint, tmp_snprint, tmp_memory_printer"]}
{"id": "C178", "title": "Formatting: only the buffer is written", "statement": "snprint writes only the len bytes of the buffer, whether or not the text fits.", "quantifier": "every well formed format string, arguments and buffer of any size", "why_tests_cant": "a write behind a buffer need not be visible in a test, and depends on where the text is cut", "anchors": ["tm_print.h: snprint, tmp_memory_printer, tmp_move_and_decorate, tmp_get_print_size"]}
{"id": "C179", "title": "Formatting: malformed format strings are rejected", "statement": "If the format string has a closing brace that stands alone, an opening brace that is not closed, or a placeholder for an argument that is not there, snprint returns -1 and writes only the buffer.", "quantifier": "every format string that is well formed up to the error, arguments, buffers", "why_tests_cant": "the error can come at any place behind any other text", "anchors": ["tm_print.h: snprint, tmp_print_impl, tmp_print_string_escaped"]}
{"id": "C180", "title": "Formatting: files and strings get all of the text", "statement": "Printing to a file and formatting into a string give the whole text, whatever its length. Only if memory is refused, ENOMEM is returned and the file gets the start of the text, and the string is empty.", "quantifier": "every well formed format string and arguments, every behaviour of the allocator", "why_tests_cant": "the memory can be refused at any growth", "anchors": ["tm_print.h: print, string_format, tmp_print, tmp_string_format, tmp_memory_printer::grow"]}
{"id": "C181", "title": "Formatting: integers can be read back", "statement": "An integer printed with a specifier for base 10, 16, 8 or 2 without flags and width is read back by the scan function with that base, which reads all of the text and gives the same value.", "quantifier": "every int32_t, uint32_t, int64_t, uint64_t and every such specifier", "why_tests_cant": "2^64 values", "anchors": ["tm_print.h: snprint, print_unsigned, scan_i32, scan_u64"]}
{"id": "C182", "title": "Formatting: numbers with fractions", "statement": "A double printed without flags and width is its sign, whole part and decimals, accurate to 0.52 units of the last decimal, in the notation that the specifier asks for.", "quantifier": "every finite double and specifier", "why_tests_cant": "2^64 values", "anchors": ["tm_print.h: snprint, tmp_print_formatted, tmp_move_and_decorate"]}
{"id": "C183", "title": "Formatting: format specifiers are read as documented", "statement": "tmp_parse_print_format reads all of a specifier [flags][width][.precision][specifier] and returns the format it stands for: width, precision and base, justification, sign, padding, prefix, notation and letters.", "quantifier": "every specifier of the documented form", "why_tests_cant": "flags can be repeated in any order, numbers have any number of digits", "anchors": ["tm_print.h: tmp_parse_print_format"]}
{"id": "C184", "title": "Triangulation: ends and stays within the arrays", "statement": "Triangulating a polygon ends, reads and writes only the given arrays, and writes at most count - 2 triangles at the start of the output; the rest of the output keeps its value. It does so for self-intersecting polygons, NaN and infinite coordinates too. Whatever the arguments are, a call that returns has written at most the given maximum number of indices, and nothing behind them.", "quantifier": "every polygon, every arithmetic that float may have, both orders, every begin, every query list of at least count elements and output of at least 3 * count indices", "why_tests_cant": "an endless loop or a write behind the array depends on which corners are taken for ears, for which there are exponentially many histories, and on rounding", "anchors": ["tm_polygon.h: triangulatePolygonEarClipping, isTriangleEar"]}
{"id": "C185", "title": "Triangulation: triangles are cut off one after the other", "statement": "The indices that are written form triangles that can be cut off the polygon one after the other: each consists of three consecutive corners of what is left, and the middle one is removed. So each triangle has three different corners and no corner is cut off twice.", "quantifier": "every polygon with 3 to 65536 corners, every arithmetic, both orders, every begin", "why_tests_cant": "the order of the cuts depends on the coordinates and their rounding", "anchors": ["tm_polygon.h: triangulatePolygonEarClipping"]}
{"id": "C186", "title": "Triangulation: a complete one covers the polygon", "statement": "If count - 2 triangles were written, their signed areas add up to the signed area of the polygon, and their sides are the sides of the polygon, once each, and inner sides that occur as often in one direction as in the other.", "quantifier": "every polygon with 3 to 65536 corners, every arithmetic, both orders, every placement of the corners", "why_tests_cant": "unbounded polygons, rounding", "anchors": ["tm_polygon.h: triangulatePolygonEarClipping"]}
{"id": "C187", "title": "Triangulation: triangles have clockwise order", "statement": "Triangles are written in clockwise order, whichever order the polygon has.", "quantifier": "every polygon whose coordinates are whole numbers of at most 1024, IEEE 754 binary32 and every arithmetic that is exact for whole numbers of at most 2^24", "why_tests_cant": "unbounded polygons", "anchors": ["tm_polygon.h: triangulatePolygonEarClipping, isTriangleClockwise"]}
{"id": "C188", "title": "Triangulation: triangles contain no other corners", "statement": "In exact arithmetic a triangle that is written and has an area contains no other corner of the polygon, not even on its border.", "quantifier": "every polygon with 3 to 65536 corners in exact arithmetic, both orders", "why_tests_cant": "unbounded polygons", "anchors": ["tm_polygon.h: triangulatePolygonEarClipping, isTriangleEar, pointInsideTriangle"]}
{"id": "C189", "title": "Triangulation: simple polygons are triangulated completely", "statement": "A simple polygon whose order is passed correctly is triangulated into count - 2 triangles.", "quantifier": "every simple polygon in exact arithmetic, both orders", "why_tests_cant": "unbounded polygons", "anchors": ["tm_polygon.h: triangulatePolygonEarClipping"]}
{"id": "C190", "title": "Polygons: clockwise means not negative area", "statement": "isPolygonClockwise ends, reads only the vertices, and if no sum is rounded returns whether the signed area of the polygon is not negative.", "quantifier": "every polygon (for the value: whole coordinates of at most m with 2 m^2 count at most 2^24), every arithmetic (for the value: IEEE 754 binary32 and every one that is exact for whole numbers up to 2^24)", "why_tests_cant": "unbounded polygons", "anchors": ["tm_polygon.h: isPolygonClockwise"]}
{"id": "C191", "title": "Resource pointers: one owner, freed once", "statement": "Whatever a program does with resource_ptr variables (construction, adoption of a value, moving, assignment to itself, swap, release, reset, destruction), no block is freed twice or without being allocated, each allocated block has exactly one owner, and when all variables are destroyed and nothing was taken out of them, nothing is left allocated.", "quantifier": "every history of operations on any number of variables", "why_tests_cant": "histories are unbounded, a double free shows only in some of them", "anchors": ["tm_resource_ptr.h: resource_ptr, make_resource"]}
{"id": "C192", "title": "Resource pointers: true means owning", "statement": "A resource_ptr converts to true exactly if it owns a resource, in particular it is false after release and after it was moved from.", "quantifier": "every history of operations, every type of resource of the library", "why_tests_cant": "histories are unbounded", "anchors": ["tm_resource_ptr.h: resource_ptr::operator bool", "tm_unicode.h: valid_resource"]}
{"id": "C193", "title": "Bezier curves: computed points are on the curve", "statement": "In exact arithmetic evaluating at k / steps, k from 0 to steps, gives the point of the curve with the parameter k / steps.", "quantifier": "every four points, every number of steps, every k", "why_tests_cant": "unbounded numbers of steps and points", "anchors": ["tm_bezier.h: computeBezierForwardDifferencer, evaluateBezierForwardDifferencer"]}
{"id": "C194", "title": "Bezier curves: points between the computed ones", "statement": "In exact arithmetic evaluating at t from 0 to 1 gives a point on the line between the two computed points around t, and a greater t gives the end of the curve.", "quantifier": "every four points, every number of steps, every t from 0 on", "why_tests_cant": "t is a real number", "anchors": ["tm_bezier.h: evaluateBezierForwardDifferencer"]}
{"id": "C195", "title": "Bezier curves: easing from x", "statement": "In exact arithmetic, for a curve for easing (x0 = y0 = 0, x1 and x2 from 0 to 1, x3 = y3 = 1) and x from 0 to 1, evaluating from x gives the value at x of the line between two neighbouring computed points of the curve whose x coordinates enclose x; 0 gives 0 and 1 gives 1. It never divides by zero. For any curve, an x greater than those of all computed points gives the end of the curve.", "quantifier": "every such curve, every number of steps, every x from 0 to 1", "why_tests_cant": "x, x1, x2, y1, y2 are real numbers", "anchors": ["tm_bezier.h: evaluateBezierForwardDifferencerFromX, computeBezierForwardDifferencer"]}
{"id": "C196", "title": "Clipping: prepared polygons", "statement": "After two polygons were transformed and their intersections were found, with enough memory, each of the two linked lists goes through all corners in order and through the intersections, each on the side it belongs to, in the order of their position on the side, and back; each intersection has the same intersection of the other polygon as its neighbor. No memory other than the given one is used.", "quantifier": "every two polygons with at least one corner each, every arithmetic (so every way of rounding), whenever the search ends", "why_tests_cant": "coordinates and rounding errors are unbounded in number", "anchors": ["tm_polygon.h: clipPolyTransformData, clipPolyFindIntersections"]}
{"id": "C197", "title": "Clipping: intersections", "statement": "The search for intersections ends, and the intersections are exactly the common points of sides of the two polygons.", "quantifier": "every two polygons", "why_tests_cant": "coordinates are real numbers", "anchors": ["tm_polygon.h: clipPolyFindIntersections"]}
{"id": "C198", "title": "Clipping: exits and entries", "statement": "On each polygon the intersections are marked as exit or entry in turn, beginning with an exit exactly if vertex 0 is inside of the other polygon by the even-odd rule (or the opposite, for the other direction). After an exit the polygon is outside of the other one, after an entry inside.", "quantifier": "every two prepared polygons, both directions", "why_tests_cant": "coordinates are real numbers, polygons have any number of corners", "anchors": ["tm_polygon.h: clipPolyMarkEntryExitPoints"]}
{"id": "C199", "title": "Clipping: emitted pieces", "statement": "Emitting polygons ends, uses only the given memory, and emits polygons that consist of exactly the pieces of the two polygons that are marked as inside, each once, with each intersection once as a vertex.", "quantifier": "every two prepared and marked polygons with intersections, enough memory", "why_tests_cant": "the ways through the pieces are unbounded in number and length", "anchors": ["tm_polygon.h: clipPolyEmitClippedPolygons, clipPolyEmitClippedPolygon"]}
{"id": "C200", "title": "Clipping: no intersections", "statement": "If no intersections were found, the first polygon is emitted if its first corner is inside of the second; otherwise the second one if its first corner is inside of the first; otherwise nothing.", "quantifier": "every two prepared polygons without intersections, every arithmetic", "why_tests_cant": "polygons of any size", "anchors": ["tm_polygon.h: clipPolyEmitClippedPolygons"]}
{"id": "C201", "title": "Clipping: all together", "statement": "Transforming, finding intersections, marking with forward directions and emitting gives polygons whose sides are exactly the pieces of each polygon that are inside of the other polygon.", "quantifier": "every two polygons, enough memory", "why_tests_cant": "coordinates are real numbers, polygons have any number of corners", "anchors": ["tm_polygon.h: clipPolyTransformData, clipPolyFindIntersections, clipPolyMarkEntryExitPoints, clipPolyEmitClippedPolygons"]}
{"id": "C202", "title": "MonotonicAllocator: blocks", "statement": "All blocks that a MonotonicAllocator gave are aligned as asked for, have the size that was asked for, lie in memory that was mapped for it, and no two of them overlap.", "quantifier": "every sequence of requests with every size and alignment, every answer of malloc and mmap, every content of memory from malloc", "why_tests_cant": "sequences of requests are unbounded and the content of fresh memory is arbitrary", "anchors": ["tm_allocator.h: MonotonicAllocator::MonotonicAllocator, MonotonicAllocator::allocate"]}
{"id": "C203", "title": "MonotonicAllocator: requests are met", "statement": "A request is met whenever the system gives the memory that is asked for, and a request that needs no memory takes none.", "quantifier": "every reachable allocator, every request with an alignment that divides the granularity", "why_tests_cant": "allocators are reached by unboundedly many histories", "anchors": ["tm_allocator.h: MonotonicAllocator::allocate"]}
{"id": "C204", "title": "MonotonicAllocator: memory is given back", "statement": "When a MonotonicAllocator is destroyed or assigned to, all memory it has is given back exactly once, unless it was asked to leak; an allocator that was moved from gives back nothing.", "quantifier": "every reachable allocator, every move", "why_tests_cant": "histories are unbounded", "anchors": ["tm_allocator.h: MonotonicAllocator::~MonotonicAllocator, MonotonicAllocator::operator="]}
{"id": "C205", "title": "MonotonicAllocator: owns", "statement": "An allocator owns each address in each block it gave, the null pointer, and no address outside of the memory that was mapped for it.", "quantifier": "every reachable allocator, every address", "why_tests_cant": "addresses and histories are unbounded in number", "anchors": ["tm_allocator.h: MonotonicAllocator::owns"]}
{"id": "C206", "title": "Unicode data: every code point has an entry", "statement": "The Unicode data has an entry for every code point up to 0x10FFFF: nothing outside of the tables is read, all functions agree with the entry, exactly one category and one case is reported; larger numbers are refused.", "quantifier": "every number", "why_tests_cant": "there are 1114112 code points and the tables are compressed in two stages with exceptions", "anchors": ["tm_unicode.h: tmu_ucd_get_entry, tmu_ucd_get_category, tmu_ucd_get_case_info, tmu_ucd_is_whitespace"]}
{"id": "C207", "title": "Unicode data: case folding", "statement": "The simple and the full case folding in the Unicode data are those of Unicode 13.", "quantifier": "every code point", "why_tests_cant": "a test samples code points; the folding must be right for all of them", "anchors": ["tm_unicode.h: tmu_ucd_get_entry"]}
{"id": "C208", "title": "Unicode data: classification", "statement": "Letters, numbers, controls, symbols and separators are what Unicode says they are; white space is white space; upper and lower case letters are told apart.", "quantifier": "every code point", "why_tests_cant": "a test samples code points", "anchors": ["tm_unicode.h: tmu_is_letter, tmu_is_number, tmu_is_control, tmu_is_whitespace, tmu_is_upper, tmu_is_lower"]}
{"id": "C209", "title": "Case folding of texts", "statement": "The case folding of a text is written if it fits into the buffer; else the code points that fit are written, the result is TM_ERANGE, and the size in the result is the size that is needed. Nothing else is written. Folding twice is the same as folding once.", "quantifier": "every well-formed text, every size and content of the buffer, simple and full folding", "why_tests_cant": "texts and buffer sizes are unbounded, and foldings have different lengths", "anchors": ["tm_unicode.h: tmu_utf8_to_case_fold_simple, tmu_utf8_to_case_fold"]}
{"id": "C210", "title": "Case folding of malformed texts", "statement": "For arbitrary bytes the functions that fold texts return, read only the text and write only into the buffer, and a text that is not well-formed is reported.", "quantifier": "every sequence of bytes, every buffer", "why_tests_cant": "malformed texts can be malformed in unboundedly many ways", "anchors": ["tm_unicode.h: tmu_utf8_to_case_fold_simple, tmu_utf8_to_case_fold"]}
{"id": "C211", "title": "Equality that ignores the case", "statement": "Two texts are equal if and only if their case foldings are equal.", "quantifier": "every two well-formed texts, also at the same address; simple and full folding", "why_tests_cant": "pairs of texts are unbounded in number", "anchors": ["tm_unicode.h: tmu_utf8_equals_ignore_case_simple, tmu_utf8_equals_ignore_case"]}
{"id": "C212", "title": "Order that ignores the case", "statement": "The comparison of two texts is the lexicographic order of their case foldings.", "quantifier": "every two well-formed texts, also at the same address; simple and full folding", "why_tests_cant": "pairs of texts are unbounded in number; sorting needs a consistent order", "anchors": ["tm_unicode.h: tmu_utf8_compare_ignore_case_simple, tmu_utf8_compare_ignore_case"]}
{"id": "C213", "title": "Order for people", "statement": "The comparison for people orders numbers in texts by their value and everything else by its case folding.", "quantifier": "every two texts, with numbers of every length; simple and full folding", "why_tests_cant": "numbers in texts have any length; sorting needs a consistent order", "anchors": ["tm_unicode.h: tmu_utf8_human_compare_simple, tmu_utf8_human_compare"]}
{"id": "C214", "title": "Reading a file", "statement": "If tmu_read_file succeeds, the contents are exactly the bytes of the file. Reading never changes a file, closes what it opens, and destroying the contents gives back all memory. A file that is there is read when no call fails, and a missing one is reported as missing.", "quantifier": "every path, every state of the files, every sequence of failures and partial transfers of system calls and allocations; no other program writes to the files at the same time", "why_tests_cant": "failures of the operating system in every combination cannot be provoked by tests", "anchors": ["tm_unicode.h: tmu_read_file, tmu_destroy_contents"]}
{"id": "C215", "title": "Reading a file as UTF-8", "statement": "tmu_read_file_as_utf8 gives the text of the file without its byte order mark, terminated, or refuses a file that is not well-formed; no memory is lost or given back twice.", "quantifier": "every path, every state of the files, every sequence of failures and partial transfers of system calls and allocations; every contents", "why_tests_cant": "failures of the operating system in every combination cannot be provoked by tests; texts are unbounded", "anchors": ["tm_unicode.h: tmu_read_file_as_utf8"]}
{"id": "C216", "title": "Writing a file", "statement": "If tmu_write_file succeeds, the file has exactly the data in it. Whatever happens, nothing but this file and the directories asked for changes, a beginning of the data is in it at most, streams are closed and no memory is lost.", "quantifier": "every path, every state of the files, every sequence of failures and partial transfers of system calls and allocations; all flags; no other program writes to the files at the same time", "why_tests_cant": "failures of the operating system in every combination cannot be provoked by tests", "anchors": ["tm_unicode.h: tmu_write_file, tmu_write_file_ex"]}
{"id": "C217", "title": "Not overwriting", "statement": "Without tmu_overwrite a file that exists is kept and an error is reported.", "quantifier": "every path, every state of the files, every sequence of failures and partial transfers of system calls and allocations; also what other programs do to the files in between", "why_tests_cant": "the moment at which another program creates the file is arbitrary", "anchors": ["tm_unicode.h: tmu_write_file_ex"]}
{"id": "C218", "title": "Writing a byte order mark", "statement": "With tmu_write_byte_order_mark, and by tmu_write_file_as_utf8, the mark is written before the text.", "quantifier": "every path, every state of the files, every sequence of failures and partial transfers of system calls and allocations", "why_tests_cant": "texts are unbounded", "anchors": ["tm_unicode.h: tmu_write_file_as_utf8, tmu_write_file_as_utf8_ex"]}
{"id": "C219", "title": "Atomic writes", "statement": "With tmu_atomic_write, which the header says is not implemented for stdio, a file has its old contents at every moment and an error is reported.", "quantifier": "every path, every state of the files, every sequence of failures and partial transfers of system calls and allocations; every moment during the call", "why_tests_cant": "a crash can happen at every moment", "anchors": ["tm_unicode.h: tmu_write_file_ex, tmu_write_file_as_utf8_ex"]}
{"id": "C220", "title": "Creating directories", "statement": "tmu_create_directory creates a directory and those above it, succeeds only if there is a directory then, and changes nothing else.", "quantifier": "every path, every state of the files, every sequence of failures and partial transfers of system calls and allocations", "why_tests_cant": "paths and trees are unbounded", "anchors": ["tm_unicode.h: tmu_create_directory"]}
{"id": "C221", "title": "Creating directories when writing", "statement": "With tmu_create_directory_tree the directories of the file are created, no others, and the file is written.", "quantifier": "every path, every state of the files, every sequence of failures and partial transfers of system calls and allocations", "why_tests_cant": "paths and trees are unbounded", "anchors": ["tm_unicode.h: tmu_write_file_ex"]}
{"id": "C222", "title": "Existence of files and directories", "statement": "tmu_file_exists and tmu_directory_exists tell whether there is a regular file or a directory. If the call fails for another reason, the reason is reported and the answer is no.", "quantifier": "every path, every state of the files, every outcome of the call; no other program writes to the files at the same time", "why_tests_cant": "states of file systems are unbounded", "anchors": ["tm_unicode.h: tmu_file_exists, tmu_directory_exists"]}
{"id": "C223", "title": "Deleting", "statement": "tmu_delete_file deletes a file, and nothing that is not a file; tmu_delete_directory deletes an empty directory and nothing else. If they do not succeed nothing is changed.", "quantifier": "every path, every state of the files, every sequence of failures and partial transfers of system calls and allocations; no other program writes to the files at the same time", "why_tests_cant": "failures of the operating system in every combination cannot be provoked by tests", "anchors": ["tm_unicode.h: tmu_delete_file, tmu_delete_directory"]}
{"id": "C224", "title": "Renaming", "statement": "If tmu_rename_file succeeds, the file is at its new place and nothing else is changed; if it does not, no file is changed. Without tmu_overwrite a file at the new place is kept.", "quantifier": "every path, every state of the files, every sequence of failures and partial transfers of system calls and allocations; all flags; no other program writes to the files at the same time", "why_tests_cant": "failures of the operating system in every combination cannot be provoked by tests", "anchors": ["tm_unicode.h: tmu_rename_file, tmu_rename_file_ex"]}
{"id": "C225", "title": "The current directory", "statement": "tmu_current_working_directory gives the path of the current directory with a slash at its end, terminated, with as much room behind it as was asked for; it is defined for paths of every length.", "quantifier": "every path, every state of the files, every sequence of failures and partial transfers of system calls and allocations; every amount of room", "why_tests_cant": "failures of the operating system in every combination cannot be provoked by tests; paths have any length", "anchors": ["tm_unicode.h: tmu_current_working_directory"]}
{"id": "C226", "title": "The path of the program", "statement": "tmu_module_filename and tmu_module_directory give the path of the program and of its directory, whole and terminated; they are defined and lose no memory.", "quantifier": "every path, every state of the files, every sequence of failures and partial transfers of system calls and allocations; paths of every length", "why_tests_cant": "failures of the operating system in every combination cannot be provoked by tests; paths have any length", "anchors": ["tm_unicode.h: tmu_module_filename, tmu_module_directory"]}
{"id": "C227", "title": "Listing a directory", "statement": "Listing gives all names in a directory once, without . and .., and tells files from directories. If some are missing because a call failed the error says so. Closing releases what was opened.", "quantifier": "every path, every state of the files, every sequence of failures and partial transfers of system calls and allocations; every directory; no other program writes to the files at the same time", "why_tests_cant": "directories are unbounded", "anchors": ["tm_unicode.h: tmu_open_directory, tmu_read_directory, tmu_close_directory"]}
{"id": "C228", "title": "Comparing file times", "statement": "tmu_compare_file_time is the order of the times.", "quantifier": "every two times of 64 bits", "why_tests_cant": "there are 2^128 pairs", "anchors": ["tm_unicode.h: tmu_compare_file_time"]}
{"id": "C229", "title": "Paths that are not terminated", "statement": "The functions that take a string view or several do what the functions with terminated paths do with the chars before the first zero, and give back the copies of the paths; if there is no memory for a copy nothing is done.", "quantifier": "every path, every state of the files, every sequence of failures and partial transfers of system calls and allocations; every function that uses the path", "why_tests_cant": "failing allocations at every point", "anchors": ["tm_unicode.h: tmu_to_platform_path_n, the functions with TM_STRING_VIEW parameters"]}
{"id": "C230", "title": "The command line as UTF-8", "statement": "tmu_utf8_command_line_from_utf16 gives every argument as terminated UTF-8 text, in order, and a null pointer after the last. If an argument is not well-formed the call is refused; the memory is given back by tmu_utf8_destroy_command_line.", "quantifier": "every number of arguments, every argument, every outcome of the allocation", "why_tests_cant": "arguments are unbounded in number and length", "anchors": ["tm_unicode.h: tmu_utf8_command_line_from_utf16, tmu_utf8_destroy_command_line"]}
{"id": "C231", "title": "What is written is read back", "statement": "Bytes that tmu_write_file_ex has written successfully are what tmu_read_file gives for the same path; text that tmu_write_file_as_utf8 has written is what tmu_read_file_as_utf8 gives.", "quantifier": "every path, every state of the files, all flags, every text; no other program writes to the files in between", "why_tests_cant": "contents and states of file systems are unbounded", "anchors": ["tm_unicode.h: tmu_write_file_ex, tmu_read_file, tmu_write_file_as_utf8, tmu_read_file_as_utf8"]}
{"id": "C232", "title": "The extended tokenizer without extensions", "statement": "With no flag of an extension set, jsonNextTokenEx gives the same token as jsonNextToken and leaves the reader in the same state.", "quantifier": "every text, every state of a reader without an error, every set of the plain flags", "why_tests_cant": "texts and states are unbounded; a test compares single texts", "anchors": ["tm_json.h: jsonNextTokenEx, jsonNextToken"]}
{"id": "C233", "title": "C++ raw strings", "statement": "With JSON_READER_CPP_RAW_STRINGS a raw string R\"delim(...)delim\" is a value whose text is exactly what is between the parentheses, with nothing replaced. It is accepted only where a value may be, and the reader never reads outside of the text.", "quantifier": "every content that does not contain the closing sequence, every delimiter, every state of the reader, every text around it", "why_tests_cant": "contents and delimiters are unbounded", "anchors": ["tm_json.h: jsonNextTokenEx, jsonParseCppRawString"]}
{"id": "C234", "title": "Python raw strings", "statement": "With JSON_READER_PYTHON_RAW_STRINGS a raw string r\"...\" or r'...' is a value whose text is exactly what is between the quotation marks, with nothing replaced. It is accepted only where a value may be, and the reader never reads outside of the text.", "quantifier": "every content that does not contain the quotation mark, every state of the reader, every text around it", "why_tests_cant": "contents are unbounded", "anchors": ["tm_json.h: jsonNextTokenEx, jsonParsePythonRawString"]}
{"id": "C235", "title": "Names without quotation marks", "statement": "With JSON_READER_UNQUOTED_PROPERTY_NAMES an identifier where a name may be written is read as that name, all of it. What is reported as a name is always a string in quotation marks or such an identifier.", "quantifier": "every identifier, every state of the reader, every text around it", "why_tests_cant": "identifiers and texts are unbounded", "anchors": ["tm_json.h: jsonNextTokenEx, jsonParseUnquotedPropertyName"]}
{"id": "C236", "title": "Strings in several parts", "statement": "With the flags for concatenated strings, strings written one after the other are one value, and jsonCopyConcatenatedString gives the text of all parts, unescaped, one behind the other. The reader never reads outside of the text and nothing is written outside of the buffer.", "quantifier": "every number of parts, every content, all whitespace between them, every size of the buffer", "why_tests_cant": "the number of parts and their contents are unbounded", "anchors": ["tm_json.h: jsonNextTokenEx, jsonParseQuotedStringEx, jsonCopyConcatenatedString"]}
{"id": "C237", "title": "Keywords in any case and numbers that are not finite", "statement": "With JSON_READER_IGNORE_CASE_KEYWORDS true, false and null are read in any mixture of capital and small letters. With JSON_READER_EXTENDED_FLOATS Infinity and NaN are read as floating point values, with a sign if there is one, and in any case if case is ignored. The text of the token is as it was written.", "quantifier": "every way to write the keywords, every state of a reader without an error in which a value may follow, every text behind them", "why_tests_cant": "the texts around are unbounded", "anchors": ["tm_json.h: jsonNextTokenEx, readValueEx, readNumberEx"]}
{"id": "C238", "title": "Comments of the extended tokenizer", "statement": "A block comment and a comment that begins with # are read as one token whose text is what is in the comment; what follows is read as if the comment were not there. A block comment that is not closed is refused.", "quantifier": "every comment, every state of the reader, every text around it", "why_tests_cant": "comments are unbounded in length", "anchors": ["tm_json.h: jsonNextTokenEx, jsonParseBlockComment, jsonParsePythonComment"]}
{"id": "C239", "title": "Reading extended tokens ends", "statement": "Every call of jsonNextTokenEx ends, and every token that is not the end or an error takes at least one byte of the text, so that reading a text token by token ends.", "quantifier": "every text, every state of the reader, every set of flags without those for extended whitespace and escaped multi line strings", "why_tests_cant": "the text is unbounded", "anchors": ["tm_json.h: jsonNextTokenEx"]}
{"id": "C240", "title": "Failing allocations are reported", "statement": "Whatever allocations fail, a call of tmxml_next_token does exactly what it does if none fails, or it delivers an error token; it never delivers a token with wrong or cut contents, and no failing allocation causes undefined behaviour.", "quantifier": "every document, all flags, every state of the reader, every pattern of failing allocations", "why_tests_cant": "patterns of failing allocations and documents are unbounded", "anchors": ["tm_xml.h: tmxml_next_token, tmxml_unescape_current_token, tmxml_grow_buffer"]}
{"id": "C241", "title": "Maps with string keys own their memory", "statement": "A map with TMH_X_KEY_IS_STRING and trivial values, created with success: whatever is inserted, found and removed and whichever allocations fail, no operation uses memory that was given back or gives memory back twice, the answers are those of a finite map (a failed insertion may lose entries), the blocks in use are exactly those the map points to, each once, and destroying the map restores the memory.", "quantifier": "every history of insert, find, remove and remove_index (with get), every pattern of failing allocations, whatever else is in memory, keys that are looked up not null", "why_tests_cant": "histories and patterns of failing allocations are unbounded", "anchors": ["tm_hashmapx.h: insert, insert_move, grow, rehash, remove, remove_index, find, destroy, tmh_string_copy, tmh_string_destroy, tmh_string_destructive_move"]}
{"id": "C242", "title": "Maps with strings as values own their memory", "statement": "The same as C241 for maps whose keys and values are strings, with the macros the documentation gives as examples (TMH_X_VALUE_COPY and TMH_X_VALUE_DESTROY; TMH_X_VALUE_MOVE is optional).", "quantifier": "every history, every pattern of failing allocations, all strings and null pointers as values", "why_tests_cant": "histories and patterns of failing allocations are unbounded", "anchors": ["tm_hashmapx.h: insert, insert_move, rehash, TMH_X_VALUE_MOVE, tmh_string_copy, tmh_string_destroy"]}
{"id": "C243", "title": "A map that could not be created can be destroyed", "statement": "Creating a map and destroying it restores the memory, whichever allocations fail.", "quantifier": "every pattern of failing allocations, whatever else is in memory", "why_tests_cant": "memory contents and patterns of failing allocations are unbounded", "anchors": ["tm_hashmapx.h: create, destroy"]}
{"id": "C244", "title": "String helpers of the hash map", "statement": "tmh_string_equals says whether two strings are the same or both null, whatever is behind their terminators; tmh_string_copy gives a block of its own with the same string or reports failure and leaves the memory as it is; tmh_string_destroy gives the copy back.", "quantifier": "all strings, null pointers, all memory contents, failing allocation", "why_tests_cant": "strings are unbounded", "anchors": ["tm_hashmapx.h: tmh_string_equals, tmh_string_copy, tmh_string_destroy"]}
{"id": "C245", "title": "Reading an extended document ends", "statement": "jsonMakeDocumentEx and jsonAllocateDocumentEx return, whatever the text is.", "quantifier": "every text, every set of flags except extended whitespace and escaped multi line strings, memory of every size", "why_tests_cant": "texts are unbounded, and each flag changes the loops that have to end", "anchors": ["tm_json.h: jsonMakeDocumentEx, jsonAllocateDocumentEx, jsonReadObjectEx, jsonReadArrayEx"]}
{"id": "C246", "title": "Extensions leave JSON readable", "statement": "A JSON text is accepted whatever extensions are switched on, its document has the structure of the text, names are shown as written, and at most 32 bytes of memory per byte of the text are needed.", "quantifier": "every text of the JSON grammar, every set of flags except extended whitespace and escaped multi line strings, every memory of sufficient size", "why_tests_cant": "texts are unbounded and there are tens of thousands of sets of flags", "anchors": ["tm_json.h: jsonMakeDocumentEx, jsonAllocateDocumentEx, jsonNextTokenEx"]}
{"id": "C247", "title": "Extensions leave the meaning of JSON as it is", "statement": "The document of a JSON text holds the strings, names, numbers and keywords that the text means, whatever extensions are switched on.", "quantifier": "every text of the JSON grammar, every set of flags except extended whitespace and escaped multi line strings", "why_tests_cant": "texts are unbounded and there are tens of thousands of sets of flags", "anchors": ["tm_json.h: jsonAllocateDocumentEx, jsonAllocateValueEx"]}
{"id": "C248", "title": "Without extensions only JSON is accepted", "statement": "When no extension is switched on, jsonMakeDocumentEx accepts only JSON texts, and gives the document of jsonMakeDocument.", "quantifier": "every text, memory of every size", "why_tests_cant": "a text that is accepted by mistake can be anywhere", "anchors": ["tm_json.h: jsonMakeDocumentEx, jsonIsValidUntilEofEx"]}
{"id": "C249", "title": "Extended documents stay in their memory", "statement": "Reading an extended document reads only the text and writes only the memory of the document; no assertion fails.", "quantifier": "every text, every set of flags, memory of every size", "why_tests_cant": "the text that makes the two passes over a container disagree can be anything", "anchors": ["tm_json.h: jsonMakeDocumentEx, jsonReadObjectEx, jsonReadArrayEx, jsonSkipCurrent"]}
{"id": "C250", "title": "Creating and destroying objects on an allocator", "statement": "create, create_default_init and create_at_least either return null, with nothing constructed and the allocator as before, or the first aligned address behind the fill level, with each object of the array constructed once, inside of the memory allocated. destroy, or a unique_ptr, destroys the same objects once each and no others, and gives the memory back: the next creation gives the same address. Destroying null does nothing.", "quantifier": "every stack allocator, every type size, alignment and number of objects, whatever other objects exist", "why_tests_cant": "sizes, alignments and fill levels are unbounded, and wrap-around needs numbers no test tries", "anchors": ["tm_allocator.h: create, create_default_init, create_at_least, destroy, allocate_storage, free_storage, UniquePtrDeleter, UniquePtrArrayDeleter"]}
{"id": "C251", "title": "Memory of dynamic stack allocators", "statement": "Each block of memory belongs to exactly one DynamicStackAllocator, is given back exactly once, and when all allocators were destroyed all memory was given back. Allocators that got no memory have no capacity.", "quantifier": "every history of constructions, moves, self moves, allocations, frees and destructions of any number of allocators, every answer of malloc", "why_tests_cant": "histories are unbounded", "anchors": ["tm_allocator.h: DynamicStackAllocator"]}
{"id": "C252", "title": "Moving dynamic stack allocators", "statement": "A move hands over the memory with its fill level, frees the memory of the target and leaves an allocator without memory that answers every request with null; moving an allocator to itself changes nothing.", "quantifier": "every two allocators in every state, every request with a size and an alignment that is a power of two", "why_tests_cant": "states and requests are unbounded", "anchors": ["tm_allocator.h: DynamicStackAllocator, StackAllocator::allocate"]}
{"id": "C253", "title": "After a successful wait for all works all of them are done", "statement": "When tma_wait_all or tma_wait_all_for returns TM_OK the procedures of the works of all valid handles in the array have returned.", "quantifier": "every array of handles, every limit of time, every history of earlier waits, every behaviour of the other threads between any two accesses, every expiry of a limit", "why_tests_cant": "interleavings are unbounded; the arrays are handled in chunks of 64, and the threads have to finish between two of them", "anchors": ["tm_async.h: tma_wait_all, tma_wait_all_for, tma_impl_wait_multiple, tma_impl_wait_all_infinite, tma_impl_wait_multiple_chunk"]}
{"id": "C254", "title": "A successful wait for any work names one that is done", "statement": "When tma_wait_any or tma_wait_any_for returns TM_OK the index in the result is that of a valid handle in the array, and the procedure of its work has returned.", "quantifier": "every array of handles, every limit of time, every history of earlier waits, every behaviour of the other threads between any two accesses, every expiry of a limit", "why_tests_cant": "interleavings are unbounded; indices are translated between chunks, arrays of events and the array of the caller", "anchors": ["tm_async.h: tma_wait_any, tma_wait_any_for, tma_impl_wait_multiple, tma_impl_wait_multiple_chunk"]}
{"id": "C255", "title": "Waiting for several works calls no procedure twice", "statement": "After any sequence of calls of tma_wait_all, tma_wait_all_for, tma_wait_any and tma_wait_any_for, which may run works in the calling thread, the procedure of each work was called at most once.", "quantifier": "every sequence of calls, every array of handles, every limit of time, every behaviour of the other threads between any two accesses, queues that are full at any time", "why_tests_cant": "the calling thread and the worker threads compete for each work in every interleaving", "anchors": ["tm_async.h: tma_wait_all, tma_wait_all_for, tma_wait_any, tma_wait_any_for, tma_impl_wait_all_infinite"]}
{"id": "C256", "title": "Waiting for several works has no undefined behaviour", "statement": "Waiting for all or any of the works of an array of handles of which one is valid fails no assertion and accesses only the array, the events that were written and the slots of the works; with the limit 0 it returns.", "quantifier": "every array of handles, every limit of time, every history of earlier waits, every behaviour of the other threads between any two accesses", "why_tests_cant": "reads behind an array go unnoticed; the length of the array, the invalid handles in it and the schedule of the threads matter", "anchors": ["tm_async.h: tma_wait_all, tma_wait_all_for, tma_wait_any, tma_wait_any_for, tma_impl_wait_multiple_chunk"]}
{"id": "C257", "title": "A locking allocator behaves as if one thread used it", "statement": "Every call of a member function of LockingAllocator takes effect at one point between its call and its return, with the result it returns, and a call that throws takes no effect; in the order of these points the results, the state that is left, and any assertion that fails, are those of the allocator inside when one thread makes these calls.", "quantifier": "every allocator inside, every number of threads, every sequence of calls by each of them, every interleaving of their loads and stores, every failure to lock", "why_tests_cant": "interleavings are unbounded, and a missing lock shows only in few of them", "anchors": ["tm_allocator.h: LockingAllocator, LockGuard, RecursiveMutex"]}
{"id": "C258", "title": "A locking allocator does not deadlock", "statement": "As long as a call of a member function of LockingAllocator is in progress some thread can go on.", "quantifier": "every allocator inside, every number of threads, every sequence of calls by each of them, every interleaving of their loads and stores, every failure to lock", "why_tests_cant": "interleavings are unbounded", "anchors": ["tm_allocator.h: LockingAllocator, LockGuard, RecursiveMutex"]}
{"id": "C259", "title": "Threads that share a stack allocator get different memory", "statement": "The blocks that threads get from allocate_bytes of a LockingAllocator<StackAllocator> lie in its buffer and do not overlap, as long as no thread frees or clears.", "quantifier": "every buffer below 2^62 bytes, every number of threads, every sequence of allocations of at least one and less than 2^62 bytes with powers of two as alignments, every interleaving of their loads and stores, every failure to lock", "why_tests_cant": "interleavings are unbounded", "anchors": ["tm_allocator.h: LockingAllocator::allocate_bytes, StackAllocator::allocate_bytes"]}
{"id": "C260", "title": "Floats survive printing with 14 decimals and reading", "statement": "A finite float that print_float prints with 14 decimals, or with as many as are needed, is read by scan_float from the printed text as the same float, and the whole text is consumed. (Documented: 'floating point values survive the roundtrip of print_float -> scan_float exactly at precision 14'.)", "quantifier": "every finite float, every set of flags with which 14 decimals are printed, every buffer with enough room, everything behind the text", "why_tests_cant": "there are 2^32 floats and the claim is about the combined error of printing, reading and converting", "anchors": ["tm_conversion.h: print_float, scan_float"]}
{"id": "C261", "title": "scan_float gives the float next to the number in the text", "statement": "The float that scan_float writes differs from the decimal number in the text by at most half a unit of the last binary digit of a float, apart from an error of 2*10^-14 of the number; numbers that are too great for a float are reported as TM_ERANGE.", "quantifier": "every text that begins with a number", "why_tests_cant": "texts are unbounded, and errors of several roundings add up", "anchors": ["tm_conversion.h: scan_float"]}
{"id": "C262", "title": "scan_float reads no uninitialised memory and leaves its output as it is in case of an error", "statement": "The result of scan_float does not depend on what is in its uninitialised variable; its result is that of scan_double for the same text; in case of an error the output is left as it is; scan_float_n gives the same as scan_float for the text up to the given length.", "quantifier": "every text, every output or none, every content of uninitialised memory", "why_tests_cant": "texts are unbounded, and uninitialised memory is often zero in tests", "anchors": ["tm_conversion.h: scan_float, scan_float_n"]}
{"id": "C263", "title": "Flags leave JSON readable", "statement": "A JSON text is accepted by jsonMakeDocument and jsonAllocateDocument whatever flags are switched on, its document has the structure of the text, names are shown as written, strings can be read, and at most 32 bytes of memory per byte of the text are needed.", "quantifier": "every text of the JSON grammar, every set of the seven flags of the model, every memory of sufficient size", "why_tests_cant": "texts are unbounded, and each flag gives characters of JSON texts further meanings", "anchors": ["tm_json.h: jsonMakeDocument, jsonAllocateDocument, jsonNextTokenImplicit, jsonIsValidUntilEof"]}
{"id": "C264", "title": "Flags leave the meaning of JSON as it is", "statement": "The document that jsonAllocateDocument makes of a JSON text holds the strings, names, numbers and keywords that the text means, whatever flags are switched on.", "quantifier": "every text of the JSON grammar, every set of the seven flags of the model", "why_tests_cant": "texts are unbounded, and each flag gives characters of JSON texts further meanings", "anchors": ["tm_json.h: jsonAllocateDocument, jsonAllocateValue, jsonAllocateUnescapedString"]}
{"id": "C265", "title": "A further flag does not change what could be read without it", "statement": "If calling jsonNextToken until JTOK_EOF reports no error with some flags, then it reports exactly the same tokens, names and values when further flags are switched on. In particular the tokens of a JSON text are the same with every set of flags.", "quantifier": "every text, every two sets of the seven flags of the model one of which contains the other, every capacity of the context stack", "why_tests_cant": "texts are unbounded, there are thousands of pairs of sets of flags, and each flag gives further characters a meaning", "anchors": ["tm_json.h: jsonNextToken, jsonNextTokenImplicit, readNumber, jsonCanEndBracketFollowLastToken"]}
{"id": "C266", "title": "Floating point numbers of a document are read with correct rounding", "statement": "jsonGetDouble of a value that is written as a number in JSON notation, as a number or within quotation marks, returns the nearest double (of two equally near ones the even one) with the sign of the number, and the default value if the number is too great for a double. For numbers below the least normal double it returns the nearest double or the default value, as the C library sets errno. It does not fault.", "quantifier": "every number in JSON notation with any number of digits and any exponent, every default value, builds with and without TM_INFINITY and TM_NAN, every C library that conforms to the standard and rounds correctly", "why_tests_cant": "unboundedly many texts, and ties and range limits are rare among them", "anchors": ["tm_json.h: jsonGetDouble, jsonToDouble, tmj_to_double"]}
{"id": "C267", "title": "Floats of a document are read with correct rounding", "statement": "jsonGetFloat of a value that is written as a number in JSON notation returns the nearest float with the sign of the number, and the default value if the number is too great for a float.", "quantifier": "every number in JSON notation, every default value, builds with and without TM_INFINITY and TM_NAN", "why_tests_cant": "unboundedly many texts; rounding twice shows only next to the middle of two floats", "anchors": ["tm_json.h: jsonGetFloat, jsonToFloat, tmj_to_float"]}
{"id": "C268", "title": "Infinity and NaN of a document", "statement": "jsonGetDouble and jsonGetFloat of a value that is written as infinity or nan, in letters of any case and with or without a sign, return infinity or NaN with this sign, in builds with and without TM_INFINITY and TM_NAN.", "quantifier": "every spelling, every sign, every default value, both builds", "why_tests_cant": "hundreds of spellings in two builds with separate code paths", "anchors": ["tm_json.h: jsonGetDouble, jsonGetFloat, jsonToDouble, jsonToFloat, stringEqualsIgnoreCase"]}
{"id": "C269", "title": "Values that are no numbers give the default value", "statement": "The functions that read numbers from values return the default value for null, objects, arrays, and strings whose text is no number. (Documented: the output stays unmodified on error.)", "quantifier": "every value of a document and every default value", "why_tests_cant": "unboundedly many values", "anchors": ["tm_json.h: jsonGetInt, jsonGetUInt, jsonGetInt64, jsonGetUInt64, jsonGetFloat, jsonGetDouble, tmj_to_int, tmj_to_double"]}
{"id": "C270", "title": "Floats are compared with a tolerance that does not depend on their order", "statement": "floatToleranceComparison gives the same result for exchanged arguments. A number or infinity is equal to itself, NaN to nothing. Two numbers are equal if they differ by no more than about a millionth of 1 or of the greater one of them, whichever is more, and not equal if they differ by more. An infinity is equal to nothing but itself.", "quantifier": "every pair of floats, with infinities, NaN, both zeros and numbers below the least normal one", "why_tests_cant": "2^64 pairs, and every operation of the comparison rounds", "anchors": ["tm_utility.h: floatToleranceComparison, Float::AbsTolerance, Float::RelTolerance, max"]}
{"id": "C271", "title": "lerp stays between its ends", "statement": "lerp(t, a, b) of floats with t between 0 and 1 is a number between a and b; it is a for t = 0 and b for t = 1.", "quantifier": "every t from 0 to 1 and all finite floats a and b", "why_tests_cant": "2^96 arguments; rounding shows only for few of them", "anchors": ["tm_utility.h: lerp"]}
{"id": "C272", "title": "remap stays within the new range", "statement": "remap(t, tMin, tMax, a, b) of floats with tMin < tMax and t from tMin to tMax is a number between a and b; it is a for t = tMin and b for t = tMax.", "quantifier": "all finite floats with tMin < tMax and tMin <= t <= tMax", "why_tests_cant": "2^160 arguments; rounding shows only for few of them", "anchors": ["tm_utility.h: remap"]}
{"id": "C273", "title": "safeDivide divides with correct rounding and never by zero", "statement": "safeDivide(a, b, def) returns def if b is a zero of any sign. Otherwise it returns the nearest float to the quotient with the sign of the quotient, or an infinity of that sign if and only if the quotient is at least half a unit above the greatest float, and never NaN.", "quantifier": "all finite floats a and b, every default value", "why_tests_cant": "2^96 arguments, and ties and the range limit are rare among them", "anchors": ["tm_utility.h: safeDivide"]}
{"id": "C274", "title": "clamp of floats gives the nearest number of the range", "statement": "clamp(val, lower, upper) of floats is in the range, and no number of the range is nearer to val. Infinities give the end of the range, NaN gives NaN.", "quantifier": "every float val, all finite floats lower <= upper", "why_tests_cant": "2^96 arguments", "anchors": ["tm_utility.h: clamp (float)"]}
{"id": "C275", "title": "A number is less than, equal to or greater than zero, and only one of them", "statement": "Exactly one of floatLtZeroSoft(x), floatEqZeroSoft(x) and floatGtZeroSoft(x) holds.", "quantifier": "every float x that is not NaN", "why_tests_cant": "2^32 values, and the limits are single values", "anchors": ["tm_utility.h: floatLtZeroSoft, floatEqZeroSoft, floatGtZeroSoft, Float::BigEpsilon"]}
{"id": "C276", "title": "floatEq and floatEqSoft compare within their tolerances", "statement": "floatEq(a, b) and floatEqSoft(a, b) do not depend on the order of a and b. Numbers that differ by less than about a millionth (a thousandth for floatEqSoft) are equal and others are not; infinities and NaN are equal to nothing. What is equal for floatEq is equal for floatEqSoft and for floatToleranceComparison. floatZeroClamp gives zero for numbers nearer to zero than about a millionth and its argument otherwise, and applying it twice is the same as once.", "quantifier": "every pair of floats, with infinities and NaN; the limits are exact up to a millionth of themselves", "why_tests_cant": "2^64 pairs, and the difference is rounded", "anchors": ["tm_utility.h: floatEq, floatEqSoft, floatEqZero, floatEqZeroSoft, floatZeroClamp, Float::Epsilon"]}
{"id": "C277", "title": "Evaluating a Bezier curve ends", "statement": "With float arithmetic, evaluateBezierForwardDifferencer and evaluateBezierForwardDifferencerFromX return for data that was computed with a positive number of steps, and fail no assertion.", "quantifier": "every number of steps from 1 to INT_MAX, every four points and every parameter, with infinities and NaN", "why_tests_cant": "2^32 parameters and 2^256 curves; a loop that does not end shows only for great numbers of steps", "anchors": ["tm_bezier.h: computeBezierForwardDifferencer, evaluateBezierForwardDifferencer, evaluateBezierForwardDifferencerFromX"]}
{"id": "C278", "title": "The occupancy of a bin is the used part of its area", "statement": "guillotineOccupancy and maxRectsOccupancy return a number from 0 to 1 that differs from the sum of the areas of the placed rectangles divided by the area of the bin by at most 2^-21; 0 for an empty bin, and 1 if nothing is free. They do not fault.", "quantifier": "every bin size and every history of insertions", "why_tests_cant": "unbounded histories; conversions and the division round", "anchors": ["tm_bin_packing.h: guillotineOccupancy, maxRectsOccupancy"]}
