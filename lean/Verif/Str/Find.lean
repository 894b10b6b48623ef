import Verif.Str.Lib

/-!
# Model of the search, tokenizing and trimming functions of `tm_stringutil.h`

A counted range is a pair of positions `first ≤ last` in the memory `mem`; a NUL-terminated string is a position.
All lines refer to `tm_stringutil.h`. The loops that are not structurally decreasing get a number of rounds that is shown
to be sufficient; running out of rounds is the fault `diverge`.
The `*_v` functions (lines 1674-1840) only take the range apart and are not repeated.
-/

namespace Tm.Str

/-- `tmsu_distance`, `tmsu_distance_sz`, lines 515-522. -/
def distance (first last : Nat) : C Nat := do
  assert (first ≤ last)
  .ok (last - first)

/-- Loop of `tmsu_find_char`, lines 526-528. -/
def findCharL (c : Byte) : List Byte → Nat → C Nat
  | [], _ => .error .oob
  | x :: xs, p => if x = 0 then .ok p else if x = c then .ok p else findCharL c xs (p + 1)

/-- `tmsu_find_char`, lines 524-530. -/
def findChar (mem : List Byte) (str : Nat) (c : Byte) : C Nat := findCharL c (mem.drop str) str

/-- Loop of `tmsu_find_char2`, lines 533-535. -/
def findChar2L (a b : Byte) : List Byte → Nat → C Nat
  | [], _ => .error .oob
  | x :: xs, p => if x = 0 then .ok p else if x = a ∨ x = b then .ok p else findChar2L a b xs (p + 1)

/-- `tmsu_find_char2`, lines 531-537. -/
def findChar2 (mem : List Byte) (str : Nat) (a b : Byte) : C Nat := findChar2L a b (mem.drop str) str

/-- `tmsu_find_char_n`, lines 544-549. -/
def findCharN (mem : List Byte) (first last : Nat) (c : Byte) : C Nat :=
  if first = last then .ok last
  else do
    let len ← distance first last
    let result ← memchr mem c first len
    .ok (result.getD last)

/-- `tmsu_find_char2_n`, lines 550-567. -/
def findChar2N (mem : List Byte) (first last : Nat) (a b : Byte) : C Nat := do
  let len ← distance first last
  if len = 0 then .ok last
  else do
    let am ← memchr mem a first len
    let bm ← memchr mem b first len
    let am := am.getD last
    let bm := bm.getD last
    .ok (if am < bm then am else bm)

/-- Loop of `tmsu_find_last_char_n_ex`, lines 577-582; `n` is `cur - str_first`. -/
def findLastCharL (mem : List Byte) (first : Nat) (c : Byte) (notFound : Nat) : Nat → C Nat
  | 0 => .ok notFound
  | n + 1 => do
    let x ← rd mem (first + n)
    if x = c then .ok (first + n) else findLastCharL mem first c notFound n

/-- `tmsu_find_last_char_n_ex`, lines 569-585 (without `TM_MEMRCHR`). -/
def findLastCharNEx (mem : List Byte) (first last : Nat) (c : Byte) (notFound : Nat) : C Nat := do
  assert (first ≤ last)
  findLastCharL mem first c notFound (last - first)

/-- `tmsu_find_last_char_n`, lines 586-588. -/
def findLastCharN (mem : List Byte) (first last : Nat) (c : Byte) : C Nat := findLastCharNEx mem first last c last

/-- `tmsu_find_last_char`, lines 539-542. -/
def findLastChar (mem : List Byte) (str : Nat) (c : Byte) : C Nat := do
  let len ← strlen mem str
  findLastCharN mem str (str + len) c

/-- Loop of `tmsu_find_n`, lines 605-611. -/
def findNLoop (mem : List Byte) (last searchLast needle needleLen : Nat) (fc : Byte) : Nat → Nat → C Nat
  | 0, _ => .error .diverge
  | fuel + 1, cur => do
    let cur ← findCharN mem cur searchLast fc
    if cur = searchLast then .ok last
    else do
      let k ← memcmp mem (cur + 1) needle needleLen
      if k = 0 then .ok cur else findNLoop mem last searchLast needle needleLen fc fuel (cur + 1)

/-- `tmsu_find_n`, lines 590-612. -/
def findN (mem : List Byte) (first last ffirst flast : Nat) : C Nat := do
  assert (first ≤ last)
  assert (ffirst ≤ flast)
  let flen ← distance ffirst flast
  if flen = 0 then .ok first
  else do
    let len ← distance first last
    if flen > len then .ok last
    else do
      let flen := flen - 1
      let searchLast := last - flen
      let fc ← rd mem ffirst
      findNLoop mem last searchLast (ffirst + 1) flen fc (searchLast - first + 1) first

/-- Loop of `tmsu_find_last_n_ex`, lines 630-636. -/
def findLastNLoop (mem : List Byte) (first needle needleLen : Nat) (fc : Byte) (notFound : Nat) : Nat → Nat → C Nat
  | 0, _ => .error .diverge
  | fuel + 1, prev => do
    let cur ← findLastCharN mem first prev fc
    if cur = prev then .ok notFound
    else do
      let k ← memcmp mem (cur + 1) needle needleLen
      if k = 0 then .ok cur else findLastNLoop mem first needle needleLen fc notFound fuel cur

/-- `tmsu_find_last_n_ex`, lines 614-637. -/
def findLastNEx (mem : List Byte) (first last ffirst flast notFound : Nat) : C Nat := do
  assert (first ≤ last)
  assert (ffirst ≤ flast)
  let flen ← distance ffirst flast
  if flen = 0 then .ok first
  else do
    let len ← distance first last
    if flen > len then .ok notFound
    else do
      let flen := flen - 1
      let searchLast := last - flen
      let fc ← rd mem ffirst
      findLastNLoop mem first (ffirst + 1) flen fc notFound (searchLast - first + 1) searchLast

/-- `tmsu_find_last_n`, lines 639-642. -/
def findLastN (mem : List Byte) (first last ffirst flast : Nat) : C Nat :=
  findLastNEx mem first last ffirst flast last

/-- The `do … while` loop of `tmsu_find`, lines 653-659. -/
def findZLoop (mem : List Byte) (fc : Byte) (needle needleLen : Nat) : Nat → Nat → C Nat
  | 0, _ => .error .diverge
  | fuel + 1, str => do
    let str ← findChar mem str fc
    let x ← rd mem str
    if x = 0 then .ok str
    else do
      let k ← strncmp mem (str + 1) needle needleLen
      if k = 0 then .ok str
      else do
        let str := str + 1
        let x ← rd mem str
        if x ≠ 0 then findZLoop mem fc needle needleLen fuel str else .ok str

/-- `tmsu_find`, lines 644-660. -/
def findZ (mem : List Byte) (str needle : Nat) : C Nat := do
  let x ← rd mem str
  if x = 0 then .ok str
  else do
    let fc ← rd mem needle
    if fc = 0 then .ok str
    else do
      let needle := needle + 1
      let flen ← strlen mem needle
      findZLoop mem fc needle flen (mem.length - str + 1) str

/-- `tmsu_find_last`, lines 662-666. -/
def findLastZ (mem : List Byte) (str needle : Nat) : C Nat := do
  let n ← strlen mem str
  let m ← strlen mem needle
  findLastN mem str (str + n) needle (needle + m)

/-- `tmsu_find_first_not_of`, lines 668-679. -/
def findFirstNotOf (mem : List Byte) (str set : Nat) : C Nat := do
  let n ← strspn mem str set
  .ok (str + n)

/-- `tmsu_find_first_of`, lines 681-692. -/
def findFirstOf (mem : List Byte) (str set : Nat) : C Nat := do
  let n ← strcspn mem str set
  .ok (str + n)

/-- Loop of `tmsu_find_last_not_of` / `tmsu_find_last_of`, lines 696-699 and 704-707; `n` is `last - str`, and `stay`
tells for which answer of `strchr` the loop goes on. -/
def findLastOfZLoop (mem : List Byte) (str set : Nat) (stay : Bool) : Nat → C Nat
  | 0 => .ok str
  | n + 1 => do
    let x ← rd mem (str + (n + 1))
    let m ← strchr mem set x
    if m = stay then findLastOfZLoop mem str set stay n else .ok (str + (n + 1))

/-- `tmsu_find_last_not_of`, lines 694-700. For an empty string `last` is `str - 1`, which is not a position of the
string any more (the loop then runs away downwards): fault `oob`. -/
def findLastNotOf (mem : List Byte) (str set : Nat) : C Nat := do
  let len ← strlen mem str
  if len = 0 then .error .oob else findLastOfZLoop mem str set true (len - 1)

/-- `tmsu_find_last_of`, lines 702-708; see `findLastNotOf` for the empty string. -/
def findLastOf (mem : List Byte) (str set : Nat) : C Nat := do
  let len ← strlen mem str
  if len = 0 then .error .oob else findLastOfZLoop mem str set false (len - 1)

/-- Loop of `tmsu_find_first_of_n` / `tmsu_find_first_not_of_n`, lines 717-719 and 730-732; `n` is
`str_last - str_first`, `stay` tells for which answer of `memchr` (found or not) the loop goes on. -/
def findFirstOfLoop (mem : List Byte) (ffirst flen : Nat) (stay : Bool) : Nat → Nat → C Nat
  | first, 0 => .ok first
  | first, n + 1 => do
    let x ← rd mem first
    let m ← memchr mem x ffirst flen
    if m.isSome = stay then findFirstOfLoop mem ffirst flen stay (first + 1) n else .ok first

/-- `tmsu_find_first_of_n`, lines 710-721. -/
def findFirstOfN (mem : List Byte) (first last ffirst flast : Nat) : C Nat := do
  assert (first ≤ last)
  assert (ffirst ≤ flast)
  if ffirst = flast then .ok first
  else do
    let flen ← distance ffirst flast
    findFirstOfLoop mem ffirst flen false first (last - first)

/-- `tmsu_find_first_not_of_n`, lines 723-734. -/
def findFirstNotOfN (mem : List Byte) (first last ffirst flast : Nat) : C Nat := do
  assert (first ≤ last)
  assert (ffirst ≤ flast)
  let flen ← distance ffirst flast
  if flen = 0 then .ok first
  else findFirstOfLoop mem ffirst flen true first (last - first)

/-- Loop of `tmsu_find_last_of_n_ex` / `tmsu_find_last_not_of_n_ex`, lines 740-742 and 751-753; `n` is
`str_last - str_first`, the result the final value of it. -/
def findLastOfLoop (mem : List Byte) (first ffirst flen : Nat) (stay : Bool) : Nat → C Nat
  | 0 => .ok 0
  | n + 1 => do
    let x ← rd mem (first + n)
    let m ← memchr mem x ffirst flen
    if m.isSome = stay then findLastOfLoop mem first ffirst flen stay n else .ok (n + 1)

/-- `tmsu_find_last_of_n_ex`, lines 736-745. `notFound` is `none` for a null pointer. -/
def findLastOfNEx (mem : List Byte) (first last ffirst flast : Nat) (notFound : Option Nat) : C (Option Nat) :=
  if first = last then .ok notFound
  else do
    let flen ← distance ffirst flast
    let n ← findLastOfLoop mem first ffirst flen false (last - first)
    if n = 0 then .ok notFound else .ok (some (first + n - 1))

/-- `tmsu_find_last_not_of_n_ex`, lines 747-756. -/
def findLastNotOfNEx (mem : List Byte) (first last ffirst flast : Nat) (notFound : Option Nat) : C (Option Nat) :=
  if first = last then .ok notFound
  else do
    let flen ← distance ffirst flast
    let n ← findLastOfLoop mem first ffirst flen true (last - first)
    if n = 0 then .ok notFound else .ok (some (first + n - 1))

/-- `tmsu_find_last_of_n`, lines 758-761. -/
def findLastOfN (mem : List Byte) (first last ffirst flast : Nat) : C (Option Nat) :=
  findLastOfNEx mem first last ffirst flast (some last)

/-- `tmsu_find_last_not_of_n`, lines 763-766. -/
def findLastNotOfN (mem : List Byte) (first last ffirst flast : Nat) : C (Option Nat) :=
  findLastNotOfNEx mem first last ffirst flast (some last)

/-! ## Ignoring case -/

/-- `tmsu_find_char_ignore_case_ansi`, lines 770-777. -/
def findCharIgnoreCase (mem : List Byte) (str : Nat) (c : Byte) : C Nat :=
  if toupper c = tolower c then findChar mem str c else findChar2 mem str (toupper c) (tolower c)

/-- `tmsu_find_char_ignore_case_ansi_n`, lines 784-796. -/
def findCharIgnoreCaseN (mem : List Byte) (first last : Nat) (c : Byte) : C Nat := do
  assert (first ≤ last)
  let len ← distance first last
  if len = 0 then .ok last
  else if toupper c = tolower c then do
    let m ← memchr mem c first len
    .ok (m.getD last)
  else findChar2N mem first last (toupper c) (tolower c)

/-- Loop of `tmsu_compare_ignore_case_ansi_n`, lines 1135-1140; the result is zero when no difference was found. -/
def compareIgnoreCaseL (mem : List Byte) : Nat → Nat → Nat → C Int
  | _, _, 0 => .ok 0
  | a, b, n + 1 => do
    let x ← rd mem a
    let y ← rd mem b
    let diff : Int := ((toupper x).toNat : Int) - (toupper y).toNat
    if diff ≠ 0 then .ok diff else compareIgnoreCaseL mem (a + 1) (b + 1) n

/-- The comparison of the lengths that ends `tmsu_compare_n` and its variants, lines 1116-1118 and 1105-1107. -/
def compareLen (alen blen : Nat) : Int := if alen > blen then 1 else if alen < blen then -1 else 0

/-- `!b_len - !a_len`, line 1103. -/
def compareEmpty (alen blen : Nat) : Int := (if blen = 0 then 1 else 0) - (if alen = 0 then 1 else 0)

/-- `tmsu_compare_ignore_case_ansi_n`, lines 1120-1145. -/
def compareIgnoreCaseN (mem : List Byte) (a alast b blast : Nat) : C Int := do
  assert (a ≤ alast)
  assert (b ≤ blast)
  let alen ← distance a alast
  let blen ← distance b blast
  if alen = 0 ∨ blen = 0 then .ok (compareEmpty alen blen)
  else if a = b then .ok (compareLen alen blen)
  else do
    let d ← compareIgnoreCaseL mem a b (if alen < blen then alen else blen)
    if d ≠ 0 then .ok d else .ok (compareLen alen blen)

/-- Loop of `tmsu_find_ignore_case_ansi_n`, lines 812-818. -/
def findIgnoreCaseNLoop (mem : List Byte) (last searchLast needle needleLast needleLen : Nat) (fc : Byte) :
    Nat → Nat → C Nat
  | 0, _ => .error .diverge
  | fuel + 1, cur => do
    let cur ← findCharIgnoreCaseN mem cur searchLast fc
    if cur = searchLast then .ok last
    else do
      let k ← compareIgnoreCaseN mem (cur + 1) (cur + 1 + needleLen) needle needleLast
      if k = 0 then .ok cur
      else findIgnoreCaseNLoop mem last searchLast needle needleLast needleLen fc fuel (cur + 1)

/-- `tmsu_find_ignore_case_ansi_n`, lines 797-819. -/
def findIgnoreCaseN (mem : List Byte) (first last ffirst flast : Nat) : C Nat := do
  assert (first ≤ last)
  assert (ffirst ≤ flast)
  let flen ← distance ffirst flast
  if flen = 0 then .ok first
  else do
    let len ← distance first last
    if flen > len then .ok last
    else do
      let flen := flen - 1
      let searchLast := last - flen
      let fc ← rd mem ffirst
      findIgnoreCaseNLoop mem last searchLast (ffirst + 1) flast flen fc (searchLast - first + 1) first

/-- `tmsu_find_ignore_case_ansi`, lines 778-782. -/
def findIgnoreCase (mem : List Byte) (str needle : Nat) : C Nat := do
  let n ← strlen mem str
  let m ← strlen mem needle
  findIgnoreCaseN mem str (str + n) needle (needle + m)

/-- `tmsu_stristr`, lines 1293-1297; `none` is the null pointer. -/
def stristr (mem : List Byte) (str needle : Nat) : C (Option Nat) := do
  let r ← findIgnoreCase mem str needle
  let x ← rd mem r
  .ok (if x ≠ 0 then some r else none)

/-! ## Escaping -/

/-- Loop of `tmsu_is_char_unescaped`, line 826; `n` is `pos - first`, the result the final value of it. -/
def unescapedLoop (mem : List Byte) (first : Nat) (esc : Byte) : Nat → C Nat
  | 0 => .ok 0
  | n + 1 => do
    let x ← rd mem (first + n)
    if x = esc then unescapedLoop mem first esc n else .ok (n + 1)

/-- `tmsu_is_char_unescaped`, lines 823-831. -/
def isCharUnescaped (mem : List Byte) (first last : Nat) (esc : Byte) : C Bool := do
  let n ← unescapedLoop mem first esc (last - first)
  .ok ((last - (first + n)) % 2 = 0)

/-- The loop of lines 838-842 in `tmsu_find_char_unescaped`. -/
def findCharUnescapedLoop1 (mem : List Byte) (start : Nat) (c esc : Byte) : Nat → Nat → C Nat
  | 0, _ => .error .diverge
  | fuel + 1, str => do
    let str ← findChar mem (str + 1) c
    let x ← rd mem str
    if x = 0 then .ok str
    else do
      let u ← isCharUnescaped mem start str esc
      if u then .ok str else findCharUnescapedLoop1 mem start c esc fuel str

/-- The loop of lines 846-854 in `tmsu_find_char_unescaped`. -/
def findCharUnescapedLoop2 (mem : List Byte) (c : Byte) : Nat → Nat → C Nat
  | 0, _ => .error .diverge
  | fuel + 1, str => do
    let str ← findChar mem str c
    let x ← rd mem str
    if x = 0 then .ok str
    else do
      let y ← rd mem (str + 1)
      if y = c then findCharUnescapedLoop2 mem c fuel (str + 2) else .ok str

/-- `tmsu_find_char_unescaped`, lines 833-856. -/
def findCharUnescaped (mem : List Byte) (str : Nat) (c esc : Byte) : C Nat :=
  if c ≠ esc then do
    let x ← rd mem str
    if x = c then .ok str
    else findCharUnescapedLoop1 mem str c esc (mem.length + 1) str
  else findCharUnescapedLoop2 mem c (mem.length + 1) str

/-- The loop of `tmsu_find_first_of_unescaped`, lines 862-875. -/
def findFirstOfUnescapedLoop (mem : List Byte) (set : Nat) (esc : Byte) : Nat → Nat → Nat → C Nat
  | 0, _, _ => .error .diverge
  | fuel + 1, first, str => do
    let str ← findFirstOf mem str set
    let x ← rd mem str
    if x = 0 then .ok str
    else if x = esc then do
      let y ← rd mem (str + 1)
      if y = esc then findFirstOfUnescapedLoop mem set esc fuel (str + 2) (str + 2) else .ok str
    else do
      let u ← isCharUnescaped mem first str esc
      if u then .ok str else findFirstOfUnescapedLoop mem set esc fuel first (str + 1)

/-- `tmsu_find_first_of_unescaped`, lines 857-877. -/
def findFirstOfUnescaped (mem : List Byte) (str set : Nat) (esc : Byte) : C Nat := do
  let x ← rd mem set
  if x = 0 then .ok str
  else findFirstOfUnescapedLoop mem set esc (mem.length + 1) str str

/-- The loop of lines 885-889 in `tmsu_find_char_unescaped_n`. -/
def findCharUnescapedNLoop1 (mem : List Byte) (first last : Nat) (c esc : Byte) : Nat → Nat → C Nat
  | 0, _ => .error .diverge
  | fuel + 1, str => do
    let str ← findCharN mem (str + 1) last c
    if str = last then .ok str
    else do
      let u ← isCharUnescaped mem first str esc
      if u then .ok str else findCharUnescapedNLoop1 mem first last c esc fuel str

/-- The loop of lines 893-901 in `tmsu_find_char_unescaped_n`. -/
def findCharUnescapedNLoop2 (mem : List Byte) (last : Nat) (c : Byte) : Nat → Nat → C Nat
  | 0, _ => .error .diverge
  | fuel + 1, str => do
    let str ← findCharN mem str last c
    if str = last then .ok str
    else if str + 1 ≠ last then do
      let y ← rd mem (str + 1)
      if y = c then findCharUnescapedNLoop2 mem last c fuel (str + 2) else .ok str
    else .ok str

/-- `tmsu_find_char_unescaped_n`, lines 878-903. -/
def findCharUnescapedN (mem : List Byte) (first last : Nat) (c esc : Byte) : C Nat := do
  assert (first ≤ last)
  if first = last then .ok last
  else if c ≠ esc then do
    let x ← rd mem first
    if x = c then .ok first
    else findCharUnescapedNLoop1 mem first last c esc (last - first + 1) first
  else findCharUnescapedNLoop2 mem last c (last - first + 1) first

/-- The loop of `tmsu_find_first_of_unescaped_n`, lines 913-926. -/
def findFirstOfUnescapedNLoop (mem : List Byte) (last ffirst flast : Nat) (esc : Byte) : Nat → Nat → Nat → C Nat
  | 0, _, _ => .error .diverge
  | fuel + 1, first, str => do
    let str ← findFirstOfN mem str last ffirst flast
    if str = last then .ok str
    else do
      let x ← rd mem str
      if x = esc then
        if str + 1 ≠ last then do
          let y ← rd mem (str + 1)
          if y = esc then findFirstOfUnescapedNLoop mem last ffirst flast esc fuel (str + 2) (str + 2) else .ok str
        else .ok str
      else do
        let u ← isCharUnescaped mem first str esc
        if u then .ok str else findFirstOfUnescapedNLoop mem last ffirst flast esc fuel first (str + 1)

/-- `tmsu_find_first_of_unescaped_n`, lines 904-928. -/
def findFirstOfUnescapedN (mem : List Byte) (first last ffirst flast : Nat) (esc : Byte) : C Nat := do
  assert (first ≤ last)
  assert (ffirst ≤ flast)
  if first = last then .ok last
  else if ffirst = flast then .ok first
  else findFirstOfUnescapedNLoop mem last ffirst flast esc (last - first + 1) first first

/-! ## Tokenizer -/

/-- What one call of a tokenizer function does: its return value, the position of the tokenizer after the call, and the
token written to `out` (`none` if `out` is not written). -/
structure Tok where
  more : Bool
  cur : Nat
  out : Option (Nat × Nat)
deriving DecidableEq, Repr

/-- `tmsu_next_token`, lines 939-953; `cur` is `tokenizer->current`. -/
def nextToken (mem : List Byte) (cur delims : Nat) : C Tok := do
  let next ← findFirstOf mem cur delims
  let x ← rd mem next
  let result : Bool := x ≠ 0
  .ok ⟨result, next + (if result then 1 else 0), some (cur, next)⟩

/-- `tmsu_next_token_skip_empty`, lines 955-971. -/
def nextTokenSkipEmpty (mem : List Byte) (cur delims : Nat) : C Tok := do
  let cur ← findFirstNotOf mem cur delims
  let x ← rd mem cur
  if x = 0 then .ok ⟨false, cur, none⟩
  else do
    let next ← findFirstOf mem cur delims
    .ok ⟨true, next, some (cur, next)⟩

/-- `tmsu_next_token_n`, lines 973-985; `cur`, `last` are `tokenizer->first`, `tokenizer->last`. -/
def nextTokenN (mem : List Byte) (cur last dfirst dlast : Nat) : C Tok := do
  assert (cur ≤ last)
  assert (dfirst ≤ dlast)
  let next ← findFirstOfN mem cur last dfirst dlast
  assert (cur ≤ next)
  let result : Bool := next ≠ last
  .ok ⟨result, next + (if result then 1 else 0), some (cur, next)⟩

/-- `tmsu_next_token_skip_empty_n`, lines 987-1001. -/
def nextTokenSkipEmptyN (mem : List Byte) (cur last dfirst dlast : Nat) : C Tok := do
  assert (cur ≤ last)
  assert (dfirst ≤ dlast)
  let cur ← findFirstNotOfN mem cur last dfirst dlast
  if cur = last then .ok ⟨false, cur, none⟩
  else do
    let next ← findFirstOfN mem cur last dfirst dlast
    assert (cur ≤ next)
    .ok ⟨true, next, some (cur, next)⟩

/-! ## Trimming and words -/

/-- `TMSU_WHITESPACE`, lines 1048-1049. The literal is an object of its own; the functions below take its address
`ws` in the memory. -/
def whitespace : List Byte := [32, 9, 10, 11, 12, 13]

/-- `tmsu_trim_left`, line 1051. -/
def trimLeft (mem : List Byte) (ws str : Nat) : C Nat := findFirstNotOf mem str ws

/-- `tmsu_trim_left_n`, lines 1053-1055. -/
def trimLeftN (mem : List Byte) (ws first last : Nat) : C Nat := findFirstNotOfN mem first last ws (ws + 6)

/-- `tmsu_trim_right_n`, lines 1056-1066. -/
def trimRightN (mem : List Byte) (ws first last : Nat) : C Nat := do
  let r ← findLastNotOfNEx mem first last ws (ws + 6) none
  match r with
  | none => .ok first
  | some p => .ok (p + 1)

/-- `tmsu_trim_n`, lines 1749-1751, with the assertion of `tmsu_view_n` (line 1644). -/
def trimN (mem : List Byte) (ws first last : Nat) : C (Nat × Nat) := do
  let l ← trimLeftN mem ws first last
  let r ← trimRightN mem ws first last
  assert (l ≤ r)
  .ok (l, r)

/-- `tmsu_find_word_end_n_ex`, lines 1020-1024. -/
def findWordEndNEx (mem : List Byte) (ws first last sfirst slast : Nat) : C Nat := do
  let first ← trimLeftN mem ws first last
  findFirstOfN mem first last sfirst slast

/-- `tmsu_find_word_start_n_ex`, lines 1030-1044. -/
def findWordStartNEx (mem : List Byte) (ws first last sfirst slast : Nat) : C Nat := do
  let last ← trimRightN mem ws first last
  if first ≠ last then do
    let r ← findLastOfNEx mem first last sfirst slast none
    match r with
    | some p => .ok (p + 1)
    | none => .ok first
  else .ok first

end Tm.Str
