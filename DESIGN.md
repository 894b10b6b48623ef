# Formal model of to-miz/tm in Lean 4

## Approach

`/repo` contains single-header C/C++ libraries. Each library is modelled function by function in
`lean/Verif/<Lib>/Model.lean`; every definition cites the header and lines it models. Small, independent
specifications (positional numerals, finite maps, Unicode Table 3-7, RFC 4648, "least index such that", ...)
live in `lean/Verif/<Lib>/Spec.lean`; helper lemmas in `Lemmas*.lean`; the property theorems, with a concrete
non-vacuity `example` beside each, in `Props*.lean`.

### Undefined behaviour, assertions, memory

`Verif/Basic.lean` defines `C α := Except Fault α`. `Fault` has distinct constructors for a failed
assertion, an out-of-bounds access, signed overflow, an oversized shift, use of an invalid pointer and running out of
fuel (a loop that does not terminate). Caller-provided output buffers are lists; `wr` writes one cell and faults when the
index is outside the list. A theorem of the form `f args = .ok r` therefore also says: no assertion fires and no
access is out of bounds. Assertions are modelled as faults (they are `assert` by default in all headers).
Wrap-around is modelled with `BitVec` wherever the code computes with fixed width
integers and a property depends on it.

## Trusted base

* Lean 4.33.0 kernel. Axioms used by the theorems: at most `propext`, `Classical.choice`, `Quot.sound`
  (the three axioms of Lean's standard library). No own axioms, no `sorry`, no `native_decide`/`bv_decide`.
  `AXIOMS.md` lists, for every theorem named in `MANIFEST.json`, the axioms that `#print axioms` reports for it.
* The reading of the C/C++ source: nothing mechanical ties the model to `/repo`. Every definition cites the lines it models.
* Behaviour of libc (`memcpy`, `memmove`, `memcmp`, `memchr`, `strlen`, `isdigit`, ... in the "C" locale) is
  assumed to follow the C standard and is modelled by the obvious list functions.
* Threads (`tm_async.h`): every atomic access, Win32 call and access to a field that threads share is one step, and a run is any interleaving of steps. This
  assumes sequential consistency, that semaphores and events behave as documented, and that the procedures of works return and use the library only to report their progress and to
  ask whether they were cancelled. Only one thread calls the library from outside, as its documentation demands.
* The model of the file system (`File/Os.lean`) is what POSIX and C promise about the calls that are used. In it there are no links, `..` is a name like any
  other, a stream that is read sees the bytes the file had when it was opened, a stream that is written writes to the file of the name it was opened with,
  and sizes do not overflow.
* Hooks (`TM_ASSERT`, `TM_MALLOC`, ...) have their default meaning, except that allocation may fail where a property speaks about it.

## What is modelled

| Header | Modelled | Not modelled |
|---|---|---|
| `tm_uint128.h` | arithmetic, division, shifts, bit operations, comparisons, bit scans (the portable De Bruijn versions), population count, bytes, text (`print_u128*`, `scan_u128*`), conversion from and to `float`/`double` | the paths for compilers with `__int128` and intrinsics; C++ operators that only forward |
| `tm_conversion.h` | integer scan and print functions of every width, hexadecimal and decimal forms, checked-width forms, `scan_bool*`, `print_bool*`, `print_hex_bytes`, `tmc_print_string` | floating point text (see below) |
| `tm_stringutil.h` | search, tokens, trimming, comparison, human comparison, reversal, base64, base64url, URL coding, word search | thin C++ overloads that forward to the modelled functions |
| `tm_unicode.h` | encode, extract, valid range, skip invalid, truncating copy, transcoding (plain, `_ex`, `_dynamic_ex`), append, comparison, counting, byte order marks, `tmu_utf8_convert_from_bytes` and its `_dynamic` form; the Unicode data (generated as lists from the tables in the header), case folding, and the comparisons that ignore the case or are for people; the file and directory functions in the variant for UNIX with `stdio.h`, over a model of the operating system (`File/Os.lean`) in which every call and every allocation may fail and other programs may write to the files before every call; the command line as UTF-8 (`tmu_utf8_command_line_from_utf16`; adding to a null pointer when the allocation was refused is not modelled as a fault) | grapheme breaks, widths, and `tmu_utf8_to_upper`, `_lower` and `_title` (they need Unicode data that is not in the header), the file functions for Windows and for platforms without POSIX, file times as the system gives them, console |
| `tm_allocator.h` | `StackAllocator` and its guards, the functions that create and destroy objects, `DynamicStackAllocator`, `LockingAllocator`, `MonotonicAllocator` (what `malloc` and `mmap` answer is an input), `FixedSizeIdAllocator`, `FixedSizeGenerationalIdAllocator` with its iterator | `RecursiveMutex`, which is assumed to be a mutex; allocators that forward to `malloc` |
| `tm_hashmapx.h` | the map: create, insert, update, get, remove, by key and by index, growth with failing allocation, the hash functions; for keys that are strings also their memory, with trivial values or strings as values | `TMH_INTERNAL_TESTING`, `TMH_NO_FNV_GCC_OPTIMIZATION` |
| `tm_json.h` | the tokenizer (plain functions, with the flags for comments, trailing commas, single quotes, hexadecimal numbers, `=`, plus signs and bare decimal points), the reader with a context stack, skipping, unescaping, the document reader and its memory pool; the extended tokenizer `jsonNextTokenEx` (block and `#` comments, names without quotation marks, C++ and Python raw strings, strings in several parts, keywords in any case, numbers that are not finite) and `jsonCopyConcatenatedString`, the extended document reader `jsonMakeDocumentEx`; reading integers, floating point numbers and booleans from values, lookup of members, JSON pointers (over a model of `strtol`, `strtoul` and `strtod` after the C standard, 64 bit `long`, correct rounding) | escaped multi line strings, extended whitespace, offsets of errors; recursion depth is unbounded, so exhaustion of the C stack is not modelled |
| `tm_bin_packing.h` | creation, reset, clear, all guillotine and MaxRects heuristics with and without turning, insertion, merging, batches; arrays with their memory, also behind their end | the other creation functions that only set fields, failing allocation, types other than `int` |
| `tm_small_vector.h` | `small_vector` and `static_vector`: construction, copying, moving, destruction, swap, growth, insertion of values, copies and ranges, emplace, erase, assign, resize, reserve, access; elements as objects with a lifetime; failing allocation | `shrink_to_fit` (its call in line 817 names a hidden member and does not compile), constructors from lists and counts, iterators and comparisons that only forward, constructors of elements that throw, `data()` of expired vectors |
| `tm_async.h` | the thread pool: pushing, dispatching, waiting for one work with and without a limit of time, waiting for all or any of several works (`Async/Multi.lean`, with the other threads as a schedule), freeing, progress, cancellation, the worker threads, the dispatch thread, both queues, handles; every thread one atomic access at a time | waiting for more than 64 unfinished works with `RegisterWaitForSingleObject`, destruction of the pool, asynchronous files and requests, the setup procedure |
| `tm_xml.h` | all functions: unescaping and trimming, the tokenizer, the reader, the prolog | `tmxml_destroy_reader`; the variant that uses `tm_unicode.h` |
| `tm_cli.h` | all functions: the parser, validation, remaining arguments, the validators | `tmcli_make_parser`, which only forwards; wide characters; builds without `_DEBUG` or with locales |
| `tm_utility.h` | minimum, maximum, median, clamp, powers of two, alignment, `mapToRange`, `swapEndian`, `isMemoryZero`, `fill`, upper and lower case; of the functions of `float`: `floatToleranceComparison`, `lerp`, `remap`, `safeDivide`, `clamp` and the macros for soft comparisons, with IEEE 754 operators as part of the model | `swapEndian` of `float` and `double`, other macros, functions that only call `memcpy`, `memmove`, `memset` or `memcmp` |
| `tm_arrayview.h` | `UninitializedArrayView`, `GridView`, `makeRangeView`; pointers and references into one memory, also into the view itself | `Array` and `ArrayView`, whose accessors are the same; assignment of initializer lists; null pointers; signed `tm_size_t` |
| `tm_conversion.h` (floating point) | `scan_double`, `scan_double_n`, `print_double` with their helpers, `scan_float`, `scan_float_n`, `print_float`; `double` arithmetic as IEEE 754 binary64 with rounding to nearest even (`Dbl/Ieee.lean`, with a proof that its rounding is the nearest one), conversion to `float` as IEEE 754 says | excess precision; texts of 2^31 chars or more |
| `tm_print.h` | `tmp_parse_print_format`, `tmp_print_impl`, the printer with a buffer and the one that grows, all types of arguments, `tmp_snprint`, `tmp_print` (what is given to `fwrite`), `tmp_string_format`, for the build with both `TMP_*_BACKEND_TM_CONVERSION` and default switches | custom printers, other backends, `TMP_STRING_WIDTH` other than the number of bytes; formats other than the default one as the initial one are in the model, the theorems are for the default one |
| `tm_polygon.h` | triangulation: `isPolygonClockwise`, `isTriangleClockwise`, the ear test, `triangulatePolygonEarClipping`; clipping: all `clipPoly…` functions (pointers are not null); `float` arithmetic is a parameter, what is assumed of it is in each theorem (nothing; exact for whole numbers up to 2^24; exact) | signed `tm_size_t` |
| `tm_resource_ptr.h` | all functions, with `tmu_contents` as the resource; programs as histories of operations | access to the resource by `get`, `*` and `->` |
| `tm_bezier.h` | all functions; `float` arithmetic is a parameter, the theorems are for exact arithmetic, C277 for IEEE 754 binary32 (`Bez/Ieee.lean`) | |

Simplifications are stated in the comment of each definition. The most common ones: a pointer into a block is an index or the
remaining list; uninitialised memory is given by an arbitrary parameter; an allocation is an oracle that may refuse.

## Plan per property

| Property | Model | Proof method |
|---|---|---|
| C01-C05 | `U128`: pair of `BitVec 64`; abstraction `toNat = low + 2^64 high` | arithmetic in `Nat`, invariants of the division loop (induction on the bit index) |
| C06 | De Bruijn multiply + table, recursion to 64/128 bit | finite table over the 32 smear results (`decide`), lifted by a smear lemma |
| C07 | `print_u128_w` backward digit loop into a buffer, `scan_u128_n` loop | induction on digits; spec = positional numerals |
| C08, C09 | bit-level conversion functions | witness for the wrong roundings; `_partial` theorem for the ranges on which they are exact |
| C10, C11 | scan loop over chars with `BitVec w` accumulator, nul-terminated and length form, w = 32/64 | loop invariant: accumulator equals value of the digits so far or the range flag is set and the value exceeds the maximum |
| C12-C16 | digit loops writing into a buffer (`wr`), two digit tables | invariants on buffer contents; tables by `decide` |
| C17 | `tm_strnicmp` loop, `scan_bool(_n)` with NUL-terminated / bounded memory | witness refutations + `_partial` theorem for what holds |
| C18-C22, C61 | table of slots, tombstone, probe loop of 16, grow with fuel, allocation oracle | refinement to a finite map under an invariant, induction over operations |
| C23 | shift-sum multiply on `BitVec 64` | algebra + induction on bytes |
| C24-C28, C58 | addresses and sizes as `BitVec 64`/`Nat`, state (sz, last_popped_alignment) | invariants over operation sequences |
| C29-C31, C59, C60 | slot array with free list and packed 32-bit ids | invariants over histories, witness refutation for C31 |
| C32-C42, C57 | byte / unit lists, stream = remaining list, explicit output buffer | induction on strings; spec = Unicode Table 3-7 encodings of scalar values |
| C43, C62 | the byte conversion with a fixed buffer, every encoding | spec: the bytes are split into characters and invalid units; induction over that split |
| C63, C64 | the same with memory that grows, each allocation may fail | the invariant of C62 with the outcomes of the allocations |
| C65-C69 | the reader is the list of the bytes left; views are suffixes with a size; counters larger than the text for loops | spec: RFC 8259 as inductive relations; completeness by induction over derivations, soundness by induction over the counter, relating the counting scanner to the reading one |
| C70-C73 | buffer of exact size, pool as (address, size, capacity) | induction over the string; invariant over sequences of uses of the pool |
| C74-C78 | stack of (context, count) entries; the loop of a client that calls `jsonNextToken` until the end or an error | the stack is the run-length form of the path of open brackets, by induction over tokens; completeness by induction over derivations; soundness by an invariant that says how the text read so far can be completed |
| C79-C85 | rectangles as four integers with checked arithmetic, arrays with capacity, stale entries and block number | every additive function of rectangles (cells, areas) has the same sum before and after a cut or a join; scores are compared with a spec of what is left over |
| C86-C92 | the same; the loop that goes on reading the old block is modelled as such | the free rectangles are the maximal empty ones, as an invariant that exact fits break; counting cells for areas and outlines; witnesses evaluated by the kernel |
| C93-C95 | the split rules and the merge loop as they are | the rules are stated by areas of both parts, not by the products the code compares; joinable means that the union is a rectangle, shown equivalent to a common edge |
| C96-C109 | storage as cells that hold an object or none, so that construction over an object, or use of none, is a fault; the heap as the set of live blocks with an oracle for each request | spec: lists, with an element without a value after a move; loops in closed form, one invariant for every operation, induction over histories; growth by an invariant on the capacity in terms of the number of requests; witnesses evaluated by the kernel |
| C110-C113 | texts as byte lists; `strtol` and `strtoul` after the C standard, with saturation as an outcome of its own | the value of digits as a sum of powers; a lower bound by the number of digits for the texts that are too long for the buffer |
| C114, C115 | lookup with the cache as a number | the two loops as one search that starts in the middle; induction over the history |
| C116, C117 | the buffer as cells with arbitrary content, in-place unescaping, the heap of C96 | spec: RFC 6901 as evaluation of tokens and percent-encoding as a relation; invariant: what is written so far, a gap, what is left, NUL |
| C118, C119, C124, C125 | the pool as a transition system, with the history of what a user observes as a ghost | invariant: each work that was not freed is in exactly one place (not dispatched, in a queue, in the hands of a thread, being executed, done); induction over runs; witnesses are schedules evaluated by the kernel |
| C120, C121 | the same | invariant of the ring: positions, semaphores and the steps between them add up; a measure that every step of a thread lowers; where no thread can go on all threads wait and nothing is left |
| C122, C123 | the blocks of slots with their bit sets and counts | invariant: a slot marked as available is not in use; counts are bounded by the bits and add up with the number of pushes |
| C126 | handles as integers | linear arithmetic |
| C127 | the same as C118 | the invariants give that every access of every step succeeds |
| C128, C129 | `unescape` as a loop over code points with its output buffer | spec: an inductive relation between escaped and plain text; every derivation is a run of the loop; conversely every accepting run gives a derivation |
| C130, C131 | the same, the buffer as its contents and the room that is left | each step computes the next piece without looking at the buffer, so that runs with different buffers give the same pieces |
| C132 | the same, all flags | spec: `strip`, `collapse` on code points; induction on the text |
| C133 | the reader as a function from its state to its state and token; allocations succeed or fail at will | case analysis of one call (`Move`): in the two final contexts a call returns false and changes nothing |
| C134 | histories of calls (`Reads`) | invariant: tokens so far + bytes left ≤ size, open elements = opening − closing tags delivered |
| C135 | the same | spec: a grammar of token kinds; invariant: the tokens so far are a prefix of a derivation, with the depth of the reader |
| C136 | all pointers are suffixes of the document, moving past its end is a fault | every lexer function is total; texts whose output has one byte per piece never trip the size assertion |
| C137 | locations as 32 bit numbers | invariant: line of the tokenizer = newlines of the consumed prefix |
| C138 | a grammar of documents with their tokens (DocSpec.lean), independent of the reader; a loop of calls | induction over the derivation of a document, one lemma per construct |
| C139 | XML declarations as a grammar, `tmxml_read_prolog` | step by step along the declaration; witnesses |
| C140 | document types as text with balanced angle brackets, comments in front | induction over the balanced text |
| C141 | the bytes of the allocated block | direct |
| C142-C145, C149, C150 | `tmcli_next` with its state, one call at a time; what a command line says as a grammar (Spec.lean), independent of the parser | each call reads the next piece of the grammar or nothing may be read; induction over the calls in both directions |
| C146 | objects that options point to as a memory with aliases | invariant over the calls |
| C147 | the four words of flags | invariant: bit i = option i was delivered |
| C148 | null pointers, assertions and bounds as faults | every call has an outcome; witnesses |
| C151 | the three validators, character by character | induction over the digits, both directions |
| C152, C153 | the functions over any type with a strict weak order | by cases |
| C154 | 32 and 64 bit words | one bit at a time, remainders |
| C155 | `int` with overflow as a fault, 64 bit product | division with remainder; counting the preimages of a number |
| C156 | words | each bit of the result |
| C157 | memory as a list, overlapping comparison | induction over the length |
| C158 | 32 bit words | by cases |
| C159-C162 | the view as three numbers and a memory, `memmove` and `memcpy` of ranges of it, overlapping `memcpy` as a fault | each call replaces a part of the memory up to the new end |
| C163 | all calls | invariant over the calls |
| C164 | numbers modulo 2^64 | division with remainder |
| C165 | numbers modulo 2^64 | by cases |
| C166 | texts as lists of chars; numbers as written (`Dbl/Spec.lean`) | splitting of the text at each loop; longest prefix by extending |
| C167 | rationals and rounding | relative error of each operation, composed |
| C168 | the same | all intermediate results are whole numbers up to 2^53 |
| C169 | text with a length against a string | both reduced to the same splitting; reads stay within the digits |
| C170 | faults of the model | from C166; witnesses for the exceptions |
| C171 | the buffer as a list of chars; rationals and rounding | digits of each part of the number; no carry |
| C172 | the same, numbers as written | distance of the fraction times a power of ten from what is printed; witnesses for wrong carries |
| C173 | the same, with room | every step either appends to the text so far or ends with the error |
| C174 | the words | by cases |
| C175 | C171 and C172 with C167 and C168 | composition |
| C176-C178 | format strings as lists of parts; what each part prints; a buffer as a list of chars | each operation of the printer appends a text, to the buffer, to the count, or to memory; induction over the parts; witnesses for the defects |
| C179 | the same, with the error behind well formed parts | the same induction with another end |
| C180 | an allocator as any function that refuses or gives at least as much | the same |
| C181 | C176 with C10 | composition |
| C182 | C176 with C172, C173 | composition; uniqueness of what `print_double` writes |
| C183 | specifiers as records, bits of the format | each part is read as it is written |
| C184, C185 | the arrays with their memory, any arithmetic | invariant of the loop: what is left is a list, written triangles are cuts of a rotation of it; a measure for the end |
| C186 | the same; antisymmetric functions of sides | sides inside cancel; areas and counts of sides are instances |
| C187, C190 | any arithmetic that is exact for whole numbers up to 2^24; IEEE 754 binary32 (two zeros) in `Poly/FloatProps.lean` | all intermediate results are whole numbers in that range |
| C188 | rationals with infinities and NaN | barycentric coordinates |
| C189 | the same | a convex polygon always has an ear; witness for a corner in the middle of a side |
| C191, C192 | allocated blocks, variables, values of the program | invariant: for each block, the number of owners is the number of times it is allocated, at most one |
| C193, C194 | rationals with infinities and NaN | the variables of the loop are differences of points of the curve; witnesses for wrong points |
| C195 | the same | the same; the x coordinate increases, since its differences are averages of positive ones |
| C196 | linked lists in arrays, any arithmetic with an asymmetric `<` | invariant of the search: each list is a tour; inserting keeps it |
| C197 | rationals with infinities and NaN | the search visits each pair of sides once; witnesses for rounding and for a wrong comparison |
| C198 | any arithmetic for the marks; rationals for their meaning | parity of crossings with a ray, followed along each piece |
| C199 | any arithmetic, marks that alternate | invariant of the loop: emitted polygons are closed ways through pieces that are inside |
| C200, C201 | any arithmetic; rationals | the others together |
| C202-C205 | histories of requests to `MonotonicAllocator`, with arbitrary answers of the system that do not overlap; live blocks and mapped memory are kept in a ledger | induction over histories with an invariant on the stack allocators; concrete histories for what does not hold |
| C206, C207 | the tables of the header as lists and numbers; the folding of Unicode 13 as ranges that were generated independently of the header | kernel evaluation of whole blocks of the tables, for all 0x110000 code points |
| C208 | the functions over the tables | evaluation for all of ASCII; witnesses for what does not hold |
| C209, C210 | loops over bytes with an output cursor | invariant: whole code points of the folded text are written as long as they fit |
| C211, C212 | streams of folded code points, also within a run | induction on what a stream yields; the exact case that goes wrong is a theorem too |
| C213 | streams of tokens; numbers modulo 2^32, differences as `int` | as C212, with tokens represented by numbers |
| C214, C215 | the reading loop over partial transfers; the world is an argument, what the system does is a plan in it | loop invariant: what is in the buffer is a beginning of the file; ledger of blocks and streams |
| C216-C219, C221 | writing over partial transfers; the trees that were seen in between are kept | as C214; the plan decides about failures; witnesses for what does not hold |
| C220 | the loop over the parts of a path | induction on the parts: the tree only grows by directories |
| C222-C224 | the calls with their error handling | case analysis over the outcomes of the calls |
| C225, C226 | growing buffers | induction on the attempts; the buffer is larger in every one |
| C227 | the stream of entries | induction on the entries that are left |
| C228 | bit vectors | arithmetic |
| C229 | functions as arguments | the copy of the path is in the ledger |
| C230 | the two passes over the arguments, with the block as pointers and chars | induction on the arguments; the sizes of the first pass are what the second needs |
| C231 | writing and reading | composition of C214-C218 |
| C232 | the extended tokenizer with the plain flags only | case by case against the plain tokenizer |
| C233 | raw strings of C++ | the search for the closing sequence, by induction; disagreements as witnesses |
| C234 | raw strings of Python | from the reading of strings in quotation marks; disagreements as witnesses |
| C235 | names without quotation marks | the longest run of identifier chars; inversion of the tokenizer for the other direction |
| C236 | strings in several parts: token and text | induction over the parts; disagreements as witnesses |
| C237 | keywords and numbers that are not finite | comparison of the folded text with the keyword |
| C238 | comments | the search for `*/`, by induction; a comment that is not closed as general disagreement |
| C239 | termination of the extended tokenizer | every loop takes a byte; the fuel is shown to suffice |
| C240 | the XML reader with failing allocations | each function against itself with memory; the only difference is the error token |
| C241–C244 | the hash map once more, with keys that are pointers to blocks and a memory in which freed blocks cannot be used (`Hash/Owned.lean`); macros for values as a parameter | every function simulates the one of `Hash/Model.lean` and keeps the list of owned blocks, counted; then induction over histories |
| C245 | termination of the extended document reader | every token takes a byte; the fuel is shown to suffice (`ExDocTerm.lean`) |
| C246, C247 | extended documents of texts of the grammar, for every set of flags | every token of the plain tokenizer in such a text is one of the extended tokenizer (`ExJson.lean`); then induction over the grammar |
| C248, C249 | extended documents without extensions | the extended reader simulates the plain one or reports an error (`ExSame.lean`); disagreements as witnesses |
| C250 | `create`, `create_default_init`, `create_at_least`, `destroy`, the deleters, over a `StackAllocator` | the loops over placement new and destructors give and take a list of objects (`Alloc/Objects.lean`), on top of C25 and `free_spec`; wrap-around and arrays of pointers as witnesses |
| C251, C252 | `DynamicStackAllocator` | every history of constructions, moves, uses and destructions of any number of allocators; invariant `Owned`: blocks and allocators correspond one to one |
| C253, C254 | `waitMultiple` | the other threads are an arbitrary schedule of changes to the slots; a Hoare logic for the model (`Post`); a flag or event that is set means that the procedure has returned, in every state |
| C255, C256 | `waitMultiple` | as above; a slot that was not pushed waits for it or was run by the caller, what the caller knows of a slot stays true whatever the others do (`Stable`, `Frame`) |
| C257-C259 | `LockingAllocator` over any object whose member functions load and store its words one at a time, any interleaving of threads | linearization points: the invariant says which words the owner of the mutex has loaded or stored; the blocks by a permutation of what was returned and the points |
| C260-C262 | `scan_float` and `print_float` on the models of `scan_double` and `print_double`; binary32 with a proof that its rounding is the nearest one | C175 and C167 with the distance between neighbouring floats; two runs with different garbage |
| C263, C264 | documents of texts of the grammar with every set of the plain flags | the extended reader simulates the plain one (`ExSame.lean`), so C246 and C247 carry over; the end of the text is looked at anew because the two readers differ there; C264 fails as C67 does (`C264_not_strings`) |
| C265 | token sequences with two sets of plain flags | each flag only turns an error into something else, at once or, for `0x`, with the next token (`FlagsUp.lean`); induction over the tokens |
| C266, C267 | `jsonGetDouble`, `jsonGetFloat` over `strtod` with numbers as rationals | the text of a number is taken apart as the grammar says; `toRange` rounds to the nearest number with the exact limit 2^1024 - 2^970 (`RealProps.lean`); partial: the code fails for long texts and rounds floats twice |
| C268 | both builds of `jsonToDouble`, `jsonToFloat` | the spellings are those that map to small letters; case analysis over the sign and the build |
| C269 | all functions for numbers | by cases over the value; partial: the code gives zero for texts that are no numbers |
| C270 | `floatToleranceComparison` over binary32 with every operator rounded | rounding keeps the order and the relative error is at most 2^-24; partial: the code takes infinities for equal to everything |
| C271, C272 | `lerp`, `remap` for `float` | the ends are numbers of the format, so rounding cannot leave the range (`blend`); partial: `b - a` may be rounded, see `C271_not_between` |
| C273 | `safeDivide` | the quotient is rounded to the nearest number, with the exact limit 2^128 - 2^103 (`round32_fits`) |
| C274-C276 | `clamp` of floats, the macros for soft comparisons | by cases; the difference is rounded, which keeps the order to the limit (`below_limit`); C275 is partial: `floatLtZeroSoft` compares with the wrong number |
| C277 | the loops of `tm_bezier.h` with IEEE 754 operators | a step of at least 2^-24 takes a number below 1 forward by at least half of it after rounding (`progress`); partial: with 2^25 steps the sum stays at 0.5 |
| C278 | `guillotineOccupancy`, `maxRectsOccupancy` with IEEE 754 operators | C80 and C87 bound the used area; conversion keeps the order, and each rounding has a relative error of at most 2^-24 (`ratio_close`); partial: MaxRects bins may be occupied by more than their area, great bins overflow |
| C44-C50, C55, C56 | char lists / index-based loops | induction; specs are quantified statements about positions |
| C51-C54 | loops with output cursor, exact bounds checks | induction on input; RFC style spec; witness refutation where the bounds checks are off by one |

A property that the code does not have is shown to fail by a theorem `Cnn_not_...` (or with a name that says what goes wrong), with a
concrete witness, and what does hold is a theorem with the suffix `_partial`.

## Disagreements found

Each of these is a theorem about the model.

Numbers (`tm_uint128.h`, `tm_conversion.h`)

* Rounding a 128-bit value up to a power of two loses the carry into the exponent: `C08_double_carry`, `C08_float_carry`.
* Rounding upward to `float` takes the last mantissa bit for a discarded bit: `C08_float_upward_exact`.
* Converting from `float` takes the sign bit into the exponent; -0.0 and negative values give nonsense: `C09_from_float_negative(_zero)`.
* The checked conversions from floating point accept values out of range: `C09_checked_accepts_out_of_range`.
* A width larger than the numeral is accepted and leading cells stay unwritten: `C07_print_too_wide`, `C15_checked_too_wide`.
* Reading the least signed value negates it with overflow: `C10_least_value_overflows`.
* Width zero makes the checked hexadecimal functions write outside of the buffer: `C15_checked_hex_zero_width`.
* `scan_bool` does not look at the last letter, `scan_bool_n` reads past the end and accepts garbage: `C17_*`.

Strings (`tm_stringutil.h`)

* An empty set or an empty needle: `C44_not_find_last_empty`, `C44_not_find_first_of_n_empty`, `C45_not_first_of_empty`, `C56_not_find_word_end_empty`, `C46_not_next_token_n_empty`, `C46_not_skip_empty_n_empty` (does not return).
* `tmsu_find_last_of` and `_not_of` on the empty string, `tmsu_find_char_unescaped` on the empty string: `C44_not_find_last_of*`, `C45_not_find_char_unescaped_empty`.
* `while (tmsu_next_token(...))` drops the last piece: `C46_not_while_next_token`.
* `tmsu_trim_n` of white space only fails an assertion: `C47_not_trim_n`.
* Human comparison is not transitive and overflows: `C49_not_transitive`, `C49_not_overflow`.
* `tmsu_compare_ignore_case_ansi` has the opposite sign, `tmsu_strnicmp` is wrong both ways, `tmsu_starts_with_ignore_case_ansi` ignores the last character: `C50_not_*`.
* Base64 with a buffer of the exact size reports success without writing the last group; sizes reported for a tail are too small; "AA=A" is accepted: `C52_not_*`.

Unicode (`tm_unicode.h`)

* `tmu_utf8_extract` accepts overlong forms and continuation bytes that are none: `C34_not_*`, `C37_not_ill_formed_utf8`.
* The mode `replace` of the transcoders does not return for invalid input: `C39_not_terminating_*`.
* Skipping invalid text in place loses everything after the first invalid unit: `C40_not_*`, `C63_not_skip`.
* A byte order mark alone is not recognised; UTF-16LE text that begins with U+0000 is taken for UTF-32LE: `C43_not_*`.
* A lone lead surrogate swallows the unit after it; left-over bytes are not reported when the output did not fit: `C62_not_*`.
* Replacing in place moves memory with a size that wrapped around: `C63_not_replace`, `C63_not_replace_last`.
* Out of memory while terminating frees the block of the caller, who keeps the pointer: `C63_not_owned`.
* Chinese, Korean and Tangut letters are control characters (ranges of the Unicode database were not expanded): `C208_not_letters`. Tabs and line ends are no
  white space: `C208_not_whitespace`.
* Overlong forms are folded without an error: `C210_not_overlong`.
* A text with exactly one code point more than another one is equal to it if it is the first argument, and compares as 0: `C211_not_*`, `C212_not_*`, `C213_not_longer`.
* Large numbers are ordered wrongly or overflow, U+10FFFF is the number 0, texts at the same address are ordered by their length, and overlong digits hang the comparison for
  people: `C213_not_large`, `C213_not_letter`, `C213_not_same`, `C213_not_ending`.

Allocators (`tm_allocator.h`)

* Padding may leave the buffer; blocks may overlap after mixed alignments; freeing does not restore the state: `C25_not_*`, `C26_not_*`, `C27_not_outer_blocks`, `C58_not_huge`.
* Reallocation of the newest block is not bounded by the buffer, and of others loses contents: `C28_not_*`.
* `MonotonicAllocator` does not construct its first stack allocator: it is what `malloc` left there, `C202_not_first`. A request of 0 bytes maps a page and abandons
  the current one: `C203_not_zero`. Pages are never unmapped: `C204_not_pages`. (On Linux `mmap` is called without `MAP_ANONYMOUS` and with file descriptor 0, line 1366.)
* Ids: `C29_not_own_slot`, `C31_not_reused`, `C31_not_create`, `C59_not_small`, `C60_not_end`.

Hash map (`tm_hashmapx.h`)

* The tombstone key matches empty slots: `C18_not_tombstone`, `C19_not_tombstone`.
* With strings as values and the default `TMH_X_VALUE_MOVE`, growing gives back the values the new table points to: `C242_not_grow`. A null pointer as value is never written into the map, and read when it is destroyed: `C242_not_null`.
* If only the second array cannot be had, `create` leaves a dangling pointer that `destroy` frees again: `C243_not_create`.
* Failed growth loses entries: `C20_not_kept`, `C22_not_kept`. Keys with the same hash beyond the probe length are never stored: `C21_crowded`.

JSON (`tm_json.h`)

* A text that ends within an exponent (`1e`) is read past its end: `C68_not_safe`.
* A number that is the whole text has the size of the token before it: `12` gives an empty number, and after a comment one that leaves the text: `C67_not_numbers`, `C68_not_readable`.
* An escape at the end of a string is not replaced, names are not unescaped: `C67_not_strings`, `C67_not_names`, `C70_not_last_escape`.
* Unescaping does not count short escapes against the room in the buffer: `C70_not_inside_the_buffer`.
* Brackets in comments and in single-quoted strings desynchronise the counting of elements: writes behind the memory, or elements never written: `C68_not_safe_comments`, `C68_not_safe_single_quotes`, `C68_not_written`.
* Giving back memory moves the pool the wrong way: `C72_not_given_back`.
* Running out of memory gives null strings with success, or an unexpected token: `C73_not_reported`, `C73_not_out_of_memory`.
* `jsonNextToken` reaches the end without an error for two strings, for a string after an array, and for the empty text:
  `C75_not_strings`, `C75_not_array_and_string`, `C75_not_empty`.
* The documentation says that memory for contexts is only missing with many changes between objects and arrays; nesting 256 arrays
  with one entry suffices: `C76_needs_an_entry_per_255`.
* The token reader reads behind a text that ends in the exponent of a number: `C78_not_safe`.
* Integers that need between 32 and 64 bits are cut to 32 bits by `jsonGetInt` and `jsonGetUInt`: `C111_not_range`.
* Texts of more than 511 chars are no numbers for `jsonGetDouble` and `jsonGetFloat`, whatever their value is: `C266_not_long`.
* `jsonGetFloat` rounds twice, so that the result is not always the nearest `float`: `C267_not_nearest`. Numbers that are too great for a `float`, but not for a `double`, give infinity instead of the default value: `C267_not_range`.
* Strings that are no numbers give zero instead of the default value: `C269_not_default`.
* Hexadecimal numbers lose their last two digits, and fail an assertion if they have only one: `C112_not_value`, `C112_not_faultless`.
* With two members of the same name, the member found depends on earlier lookups: `C115_not_history`.
* JSON pointers: members whose names start with a digit cannot be reached (`C116_not_digits`); an index of 2^64 or more gives the first element, `01` and `1x` are taken as 1 (`C116_not_index`); percent-encoding is decoded together with `~0` and `~1` instead of before (`C116_not_percent`); text before the first slash is ignored (`C116_not_pointer`).

* The extended tokenizer: raw strings with a delimiter are refused, and the text is read past its end if it ends in one: `C233_not_delimiter`, `C233_not_inside`. Raw strings are accepted
  in arrays without a comma before them: `C233_not_refused`, `C234_not_refused`. A backslash in a Python raw string must begin an escape of JSON: `C234_not_raw`. With both kinds of raw strings short ones are read past
  the end: `C234_not_both`.
* Strings in several parts: a third part behind whitespace is left (`C236_not_three`), at the end of the text the reader reads past it (`C236_not_inside`), the last part is not unescaped (`C236_not_unescaped`), and the
  terminator is written behind the buffer (`C236_not_room`).
* A block comment that is not closed and has no `*` in it is accepted, and what is in it is read as JSON: `C238_not_closed`.
* `jsonMakeDocumentEx` accepts another token behind the root, so texts that are not JSON are accepted without any extension (`C248_not_json`); with one more token an assertion fails
  (`C249_not_asserted`). Brackets in block comments and raw strings are counted, and elements are written behind those allocated: `C249_not_inside`.
* `create<T[]>`, `create_default_init<T>` and `allocate_storage<T>` compute `count * sizeof(T)` without a check. When that wraps around a small block is allocated and objects are
  constructed behind it: `C250_not_inside`. `create<X*[]>` and `create_at_least<X*[]>` construct an `X` in the place of each pointer: `C250_not_pointers`.

Bin packing (`tm_bin_packing.h`)

* `binPackReset` does not note the new size, so that a later `binPackClear` restores the old one: `C84_not_noted_by_reset`.
* Areas that are not representable overflow: `C85_not_any_size`, `C92_not_any_area` (even for a rectangle that has no room), `C92_not_any_outline`.
* One call of `guillotineMergeFreeRects` can leave free rectangles that could be joined, because a joined rectangle is not compared again with those already passed: `C95_not_all_joined`. Repeating the call does it (`C95_repeated_partial`).
* A MaxRects insertion that fills a free rectangle exactly skips the entry that is moved to its place, so that later rectangles overlap: `C87_not_apart`, `C88_not_finds`.
* The occupancy of such a bin is above 1: `C278_not_maxRects`. For bins with an area above INT_MAX it overflows: `C278_not_faultless`.
* `maxRectsFreeRectsSize(n) = 5 * n` is not enough: `C90_not_enough`. With memory that grows, `maxRectsInsert` reads the old block after it was reallocated: `C90_not_growing`.
* `maxRectsInsertBatch` compares the scores of the long side rule in the wrong order: `C91_not_best`.

Vectors (`tm_small_vector.h`)

* `push_back(std::move(v[i]))` without memory loses the value: `C100_not_moved`. So do failing assignments, which empty the vector.
* `reserve(n)` asks for `n - capacity()` more elements than `size()`, not than `capacity()`: it reports success without the capacity unless the vector is full: `C101_not_reserved`.
* For that reason `swap` writes behind a small buffer: `C105_not_exchanged`. It also exchanges the capacities when it does not exchange the buffers, so that a later insertion writes behind the small buffer: `C105_not_capacity`.
* `insert(pos, 0, value)` move-assigns each element behind `pos` to itself: `C106_not_kept`. `assign(0, value)` and the insertion of an empty range of null pointers fail an assertion if the vector has no storage: `C106_not_assign`, `C106_not_range`.
* `emplace` and `emplace_back` read their arguments after the elements were moved or the storage was freed: `C107_not_grown`, `C107_not_shifted`.
* `sizeof(T) * count` wraps around, so that a request for `2^61` elements of eight bytes succeeds, and the next element is written out of bounds: `C108_not_refused`.
* A failing `assign(n, value)` takes its buffer from a vector without an allocator for good: `C109_not_capacity`.

Thread pool (`tm_async.h`)

* A wait that runs out of time marks the work as done (`slot->signaled`). The next wait succeeds at once: `C119_not_timeout`. The work can be freed while it is
  executed (`C124_not_free`), so that progress and cancellation reach the wrong work (`C125_not_progress`, `C125_not_cancel`), a work is executed twice
  (`C118_not_once`) or a procedure is called that is not there (`C127_not_procedure`).
* A worker thread marks the work as done before it signals the event. If the work is freed in between, the wait for the next work in the same slot ends too early: `C119_not_signal`.
* A work that was dispatched but not started cannot be freed: it is taken out of the queue, then an assertion fails: `C124_not_queued`.
* Waiting for a work that was not dispatched reads the queue at position -1: `C121_not_deferred`.
* The 257th work that waits to be executed is never executed: the dispatch thread ends when there is room for it: `C120_not_runs`. It would end the process
  if the array of such works were full (`appendStep`, the check of lines 994 to 1003 is the wrong way around).
* The count of available slots is never raised, so that freed slots are not used again once 256 works were pushed: `C122_not_reuse`.
* Works that the main thread executes in its wait do not give back their place in the queue before a worker thread has passed it (`popSlot`).
* `tma_wait_all_for` with the limit 0 computes the size of a chunk as the larger, not the smaller, of 64 and what is left. With less than 64 handles it reads behind
  the array (`C256_not_inside`); with 128 it can return `TM_OK` although no procedure of the first 64 works was called (`C253_not_polled`).
* The assertion of `tma_wait_all_for` that compares the events looks at the event with the number of the handle instead of the number of the event: `C256_not_asserted`.
* The same handle twice makes `tma_wait_all` call the procedure twice (`C255_not_once`) and `tma_wait_any` fail an assertion (`C256_not_twice`) if the queues are full.
* A wait for one work that ran out of time makes the waits for several works succeed at once, too: `C253_not_after_timeout`.

XML (`tm_xml.h`)

* The empty text is not null-terminated by `tmxml_unescape_string`: `C128_not_terminated`.
* Numbers of character references are taken modulo 2^32: `C129_not_wrap`. Invalid UTF-8 is accepted, and hides what follows it: `C129_not_utf8`.
* The reported size is too small by one if the buffer ends inside a character: `C130_not_needed`.
* A carriage return as the last byte but one makes `trim_newlines` read behind the string: `C131_not_reads`.
* Reducing spaces forgets the space behind an escape or a bracket: `C132_not_reduce`. `trim_newlines` turns "\r\n" into two spaces and keeps some carriage returns: `C132_not_newlines`.
* An error in a comment behind the root is reported again and again, reading never ends: `C133_not_error`. A closing tag in front of the root is delivered again and again, without an error: `C134_not_ends`.
* The names of closing tags are not compared with those of the opening tags: `C135_not_names`.
* A text whose 64th byte is in the middle of a character fails an assertion: `C136_not_asserts`.
* Offsets behind a value of an attribute are too small by one for each (`C137_not_offset`), columns behind a comment, CDATA section or processing instructions do not count what precedes them in the line (`C137_not_column`).
* The closing token of `<a x='1' />` has the value of the attribute as its name (`C138_not_empty`), `<a x='1'/>` is rejected (`C138_not_compact`), as are comments with "&" (`C138_not_comment`) and processing instructions such as `xml-stylesheet` (`C138_not_instructions`).
* `standalone="no"` is rejected: `C139_not_standalone`. Declarations with rubbish at the end are accepted: `C139_not_rejected`.
* An angle bracket in a literal of a document type is counted: `C140_not_literal`.
* `tmxml_copy_string` does not terminate its copy, for every string that is not empty: `C141_not_terminated`.

Command lines (`tm_cli.h`)

* A word such as `--_x` ends the options without an error, even if `_x` is the name of an option: `C142_not_delivered`.
* A free argument behind an option without an argument (`-v input`) is an error, also behind one whose argument is in the same word (`-ofile input`): `C143_not_flag`, `C143_not_glued`.
* A maximum amount above one has no effect for options without a counter: `C145_not_limit`.
* Options without a long name (null) are accepted, but any long option on the command line dereferences it, and validation prints it: `C148_not_null`, `C148_not_printed`. An empty short name is accepted, but fails an assertion: `C148_not_empty`.

Utilities (`tm_utility.h`)

* `minmax` of three with a compare functor uses `operator<` for one of its comparisons: `C152_not_functor`. (`median` with a functor does not compile.)
* `floatToleranceComparison` takes an infinity for equal to every number and to the infinity of the other sign: `C270_not_infinite`.
* `lerp` and `remap` leave the range between their ends where the difference of the ends is rounded: `C271_not_between`, `C272_not_between`. If it is too great for a `float`, `lerp` gives NaN.
* `floatLtZeroSoft` lacks a minus: zero and small positive numbers are less than zero. Of 0.001f none of the three comparisons holds: `C275_not_one`.
* `mapToRange` overflows for ranges of 2^31 numbers or more: `C155_not_wide`. On 32 bit architectures it maps negative values below the range: `C155_not_narrow`.

Array views (`tm_arrayview.h`)

* `pop_back` of an empty view makes its size 2^64 - 1; the assertion is always true: `C159_not_pop_back`, `C163_not_pop_back`.
* `insert` of a range of the view itself that is behind the position inserts other values: `C160_not_own`. `insert` of 2^31 copies or more overflows an `int` (by reading).
* `erase` at the end of a view passes the assertion and moves "-1" values: `C161_not_end`.
* `assign` of a range that ends where the view begins fails an assertion: `C162_not_front`.

Floating point numbers (`tm_conversion.h`)

* A dot without digits is accepted as a number: `C166_not_dot`.
* The documentation says that floats survive printing with 14 decimals and reading. Small ones do not, because they need more decimals (`C260_not_small`); those from 10^18 on are read without their
  last digits (`C260_not_great`); from 2^64 on printing has undefined behaviour (`C260_not_printed`). From 2^-21 to 2^53 they do: `C260_same_partial`. Numbers that are too great for a float are read as
  infinity without an error: `C261_not_range`.
* Numbers below one with a positive exponent lose digits: "0.5e1" gives 0, "0.75e1" gives 0.7 (`scan_LeadingZeroes` counts the dot as a digit): `C167_not_below_one`.
* More than 18 digits in the integer part or in the fraction give numbers wrong by powers of ten: `C167_not_nineteen_digits`, `C167_not_long_fraction`.
* "0e400" gives NaN: `C167_not_zero`.
* The exponent 511 is accepted and then fails an assertion: `C170_not_assertion`.
* A fraction of 512 digits leads to a read behind the table of powers of ten: `C170_not_table`.
* Printing rounds wrongly just below whole numbers: 0.9999 with two decimals is printed as "1.100" (`C172_not_carry`), a number just below 2 as "2.99999999999999" (`C172_not_just_below`), the greatest double below 1 without decimals as "2" (`C172_not_below_one`).
* 2^52 + 1 without decimals is printed as 2^52 + 2 (`C171_not_odd`); 2^63 is printed 32 too small (`C171_not_great`).
* Printing any finite number from 2^64 on converts it to `uint64_t`, which is undefined: `C173_not_great`.

Formatting (`tm_print.h`)

* "}}" before a placeholder: the closing brace of the placeholder is looked for from the start of the text (line 2018) instead of from the placeholder; a read behind the format string follows: `C176_not_escaped_brace`.
* A string in a wider field loses its last chars, since line 1097 adds `width - format.width` (0) to the size: `C176_not_string_width`, `C180_not_string_width`.
* A truth value in a wider field loses chars or fails an assertion (lines 1673-1678): `C176_not_bool_width`, `C177_not_bool_width`.
* The least `int32_t` and `int64_t` are negated (lines 1849, 1854): `C176_not_least`, `C181_not_least`.
* With '+' a negative zero gets two signs: `C176_not_two_signs`.
* A number with a fraction in a field wider than the rest of the buffer is moved before the room is checked (lines 1244-1255): bytes behind the buffer are overwritten: `C178_not_inside`.
* A format string that ends in '{' and not with a zero byte: the byte behind it is read (line 2010): `C179_not_terminated`.
* Scientific and hexadecimal notation are not implemented: `C182_not_scientific`, `C182_not_hexadecimal`. Numbers from 2^64 on: `C182_not_great`.

Polygons (`tm_polygon.h`)

* A corner in the middle of a side of a clockwise polygon is cut off as a flat triangle, and the rest is then not triangulated: `C189_not_flat`.
* If a corner is on a side of the other polygon it is moved by a small distance. With `float` and coordinates of about 10000 it stays where it is,
  and the search for intersections does not end: `C197_not_ending`.
* `cross < 0.000001f || cross > 0.000001f` excludes only one number: intersections of sides with this product are missed, `C197_not_all`, and almost
  parallel sides are not excluded.
* Seen and not proved: if memory for vertices or polygons runs out, the size of the last polygon is not set; the number of vertices in the result has 16 bits
  (it is modulo 65536 in `Output`).

Resource pointers (`tm_resource_ptr.h`) and Bezier curves (`tm_bezier.h`)

* A released `resource_ptr` of a type with an error code is still true: `C192_not_result`.
* Points between the computed ones are interpolated in the wrong direction (line 177): `C194_not_between`. A parameter greater than 1 gives a point behind the end: `C194_not_end`.
* With 2^25 steps, evaluating a curve at its end does not end, because adding the step to 0.5 gives 0.5: `C277_not_ends`.

Files (`tm_unicode.h`, UNIX with `stdio.h`)

* The result of `fclose` is not looked at: data that could not be written out are reported as written, and the old contents are gone: `C216_not_written`.
* A file that another program creates between the check and the opening is overwritten without `tmu_overwrite`: `C217_not_raced`.
* No byte order mark is ever written: `C218_not_marked`.
* `tmu_create_directory` fails for every absolute path of something that is not there: `C220_not_absolute`. It reports success when there is a file at the
  place (`C220_not_file`), and for `~/`, which is not the home directory anywhere else: `C220_not_home`.
* `~` in a name is taken for a separator: with `tmu_create_directory_tree` a directory is created that nobody asked for: `C221_not_tilde`.
* `tmu_delete_file` deletes empty directories: `C223_not_directory`.
* `tmu_rename_file_ex` with `tmu_overwrite` deletes the other file when `rename` failed for any reason, and may lose it: `C224_not_kept`. If both names are
  those of the same file, this file is lost: `C224_not_same`.
* `tmu_current_working_directory`: no room for the slash if the path has 199 chars (or 200 more, and so on): `C225_not_room`.
* `tmu_module_filename` frees an array on its stack when the first `readlink` fails: `C226_not_failed`.
* Sockets are listed as directories, and directories of file systems that do not tell the type as files: `C227_not_types`.
* `tmu_compare_file_time` takes a difference of unsigned numbers as signed: `C228_not_order`.
* `tmu_read_file_as_utf8` loses the memory when reading fails in the middle, `C215_not_leaked`, and frees it twice when there is none for the terminator:
  `C215_not_freed`.
* The header says that the pointer after the last argument is null: it points to an empty string, for every command line: `C230_not_null`.
* A text that begins with U+FEFF is read back without it: `C231_not_marked`.

Seen while reading and not proved: `LockingAllocator::mutex()` returns the allocator;
destroying an id twice corrupts the free list; `tmu_utf8_width_n` assigns the wrong stream field; `print_hex_bytes` computes `size * 2` with wrap-around;
`tma_wait_all` checks `events_buffer[handle_index]` instead of `events_buffer[i]`; a pool of zero threads is reported as initialized without its queues.

## Testing the theorems

`seeded/LOG.jsonl` lists edits of the model that stand for realistic bugs, with the theorems that stopped proving, and the theorems that were tightened because
none did. The edits are made in a copy; the property theorems whose proofs (or whose lemmas' proofs) break are those listed.
Where an entry has no failed and no tightened theorem, its `note` or `status` says why: a control, an edit that does not change what the program does, an edit of which
only the lemmas that broke were recorded, or one that survived because no property is about what it changes.
