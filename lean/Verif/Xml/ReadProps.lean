import Verif.Xml.PrologLemmas
import Verif.Xml.FaultLemmas

/-!
# What reading a document token by token guarantees

`Started doc flags r` are the readers that are ready for the first token, `Reads r ts r'` are all ways to call `nextToken` from there
(ReadSpec.lean): every call may or may not be able to allocate memory.
-/

namespace Tm.Xml

/-! ## C133: the end is final -/

/-- **C133** Once `nextToken` has returned false, it returns false, and the context in which it ended does not change any more. -/
theorem C133_final {alloc : Nat → Bool} {r r' : Reader} (h : nextToken alloc r = .ok (false, r')) (alloc' : Nat → Bool) :
    ∃ r'', nextToken alloc' r' = .ok (false, r'') ∧ r''.ctx = r'.ctx := by
  have key : r'.ctx = .eof ∨ r'.ctx = .error := by
    rcases nextToken_move h with ⟨_, h1, h2, _⟩ | ⟨h1, _⟩
    · rw [h2]; exact h1
    · cases h1
  unfold nextToken
  rcases key with key | key <;> (rw [key]; exact ⟨_, rfl, rfl⟩)

/-- **C133** The call after the token of the end returns false. -/
theorem C133_eof {alloc : Nat → Bool} {r r' : Reader} (h : nextToken alloc r = .ok (true, r')) (hk : r'.current.kind = .eof)
    (alloc' : Nat → Bool) : ∃ r'', nextToken alloc' r' = .ok (false, r'') := by
  have key : r'.ctx = .eof ∨ r'.ctx = .error := by
    rcases nextToken_move h with ⟨h1, _⟩ | ⟨_, _, _, hm⟩
    · cases h1
    · cases hm with
      | fail f c => exact .inr c
      | eof f c => exact .inl c
      | stuck f c k => rw [hk] at k; cases k
      | misc f c k => rw [hk] at k; rcases k with k | k <;> cases k
      | text f c k => rw [hk] at k; rcases k with k | k <;> cases k
      | opened f c k => rw [hk] at k; cases k
      | tag f c k => rw [hk] at k; cases k
      | closed f c k => rw [hk] at k; cases k
      | empty f c k => rw [hk] at k; cases k
      | name f c k => rw [hk] at k; cases k
      | last f c k => rw [hk] at k; cases k
      | value f c k => rw [hk] at k; cases k
      | post f c k => rw [hk] at k; rcases k with k | k <;> cases k
      | again f c k => rw [hk] at k; cases k
  unfold nextToken
  rcases key with key | key <;> (rw [key]; exact ⟨_, rfl⟩)

/-- **C133** The call after an error token returns false. Missing: errors in comments behind the root, see `C133_not_error`. -/
theorem C133_error_partial {alloc : Nat → Bool} {r r' : Reader} (h : nextToken alloc r = .ok (true, r'))
    (hk : r'.current.kind = .error) (hr : r.ctx ≠ .postRoot) (alloc' : Nat → Bool) :
    ∃ r'', nextToken alloc' r' = .ok (false, r'') := by
  have key : r'.ctx = .error := by
    rcases nextToken_move h with ⟨h1, _⟩ | ⟨_, _, _, hm⟩
    · cases h1
    · cases hm with
      | fail f c => exact c
      | eof f c k => rw [hk] at k; cases k
      | stuck f c k => rw [hk] at k; cases k
      | misc f c k => rw [hk] at k; rcases k with k | k <;> cases k
      | text f c k => rw [hk] at k; rcases k with k | k <;> cases k
      | opened f c k => rw [hk] at k; cases k
      | tag f c k => rw [hk] at k; cases k
      | closed f c k => rw [hk] at k; cases k
      | empty f c k => rw [hk] at k; cases k
      | name f c k => rw [hk] at k; cases k
      | last f c k => rw [hk] at k; cases k
      | value f c k => rw [hk] at k; cases k
      | post f c k => rw [hk] at k; rcases k with k | k <;> cases k
      | again f c k hc => exact absurd hc hr
  unfold nextToken
  rw [key]; exact ⟨_, rfl⟩

/-- `<a></a>`, a document to read. -/
def sample : Reader := makeReader (ascii "<a></a>") {}

/-- The reader after some calls. -/
def after (n : Nat) (r : Reader) : Reader :=
  match n with
  | 0 => r
  | n + 1 => match nextToken rich (after n r) with
    | .ok (_, r) => r
    | .error _ => r

example : nextToken rich (after 2 sample) = .ok (true, after 3 sample) ∧ (after 3 sample).current.kind = .eof ∧
    nextToken rich (after 3 sample) = .ok (false, after 4 sample) ∧ (after 4 sample).ctx = .eof := by decide +kernel

example : nextToken rich (makeReader (ascii "<a x></a>") {}) = .ok (true, after 1 (makeReader (ascii "<a x></a>") {})) ∧
    nextToken rich (after 1 (makeReader (ascii "<a x></a>") {})) = .ok (true, after 2 (makeReader (ascii "<a x></a>") {})) ∧
    (after 2 (makeReader (ascii "<a x></a>") {})).current.kind = .error ∧
    (after 1 (makeReader (ascii "<a x></a>") {})).ctx ≠ .postRoot := by decide +kernel

/-- A comment with an invalid reference behind the root. -/
def badComment : Reader := makeReader (ascii "<a></a><!--&#0;-->") {}

theorem badComment_reads : Reads badComment [(after 1 badComment).current, (after 2 badComment).current] (after 2 badComment) := by
  have h1 := Reads.call [] badComment (after 1 badComment) rich .nil (by decide +kernel)
  exact Reads.call _ _ (after 2 badComment) rich h1 (by decide +kernel)

theorem badComment_again : (after 3 badComment).current.kind = .error ∧
    nextToken rich (after 2 badComment) = .ok (true, after 3 badComment) ∧
    nextToken rich (after 3 badComment) = .ok (true, after 3 badComment) := by decide +kernel

/-- **C133** is false of an error in a comment behind the root: `tmxml_unescape_current_token` turns the token into an error, but the
context is already that for what is behind the root (lines 1174-1175), so that the next call reads the same comment and reports the
same error again, and never returns false. -/
theorem C133_not_error : ∃ doc flags r ts r', Started doc flags r ∧ Reads r ts r' ∧ r'.current.kind = .error ∧
    nextToken rich r' = .ok (true, r') :=
  ⟨_, _, badComment, _, after 3 badComment, .fresh, .call _ _ _ rich badComment_reads badComment_again.2.1, badComment_again.1,
    badComment_again.2.2⟩

/-! ## C134: reading ends -/

theorem Reads.tally {r r' : Reader} {ts : List Token} {n : Nat} (h : Reads r ts r') (h0 : Tally n [] r)
    (hc : ∀ p t q, ts = p ++ t :: q → t.kind = .tagClose → (p.map Token.kind).count .tagClose < (p.map Token.kind).count .tagOpen)
    (he : ∀ t ∈ ts, t.kind ≠ .error) : Tally n (ts.map Token.kind) r' := by
  induction h with
  | nil => exact h0
  | call ts r' r'' alloc _ hn ih =>
    rcases nextToken_move hn with ⟨h, _⟩ | ⟨_, h1, h2, hm⟩
    · cases h
    · rw [List.map_append]
      refine (ih (fun p t q e => hc p t (q ++ [r''.current]) (by rw [e]; simp))
        fun t ht => he t (List.mem_append_left _ ht)).step h1 h2 hm ?_ ?_
      · exact .inl (he _ (List.mem_append_right _ (List.mem_singleton.mpr rfl)))
      · exact hc ts r''.current [] rfl

theorem Started.tally {doc : List Byte} {flags : Flags} {r : Reader} (h : Started doc flags r) : Tally doc.length [] r := by
  have hl : r.tz.rest.length ≤ doc.length := h.adv.le
  have hd : r.opened = 0 := by rw [h.frame]; rfl
  refine ⟨fun _ => by simpa using hd, ?_, fun _ _ => ?_⟩ <;> (simp only [List.length_nil]; omega)

/-- **C134** Reading delivers at most one token more than the document has bytes, as long as no closing tag is delivered that closes
nothing and reading stops at the first error. Missing: documents with such a closing tag, and reading on after an error, see
`C134_not_ends` and `C133_not_error`. -/
theorem C134_ends_partial {doc : List Byte} {flags : Flags} {r r' : Reader} {ts : List Token} (hs : Started doc flags r)
    (h : Reads r ts r')
    (hc : ∀ p t q, ts = p ++ t :: q → t.kind = .tagClose → (p.map Token.kind).count .tagClose < (p.map Token.kind).count .tagOpen)
    (he : ∀ p t q, ts = p ++ t :: q → t.kind = .error → q = []) : ts.length ≤ doc.length + 1 := by
  cases h with
  | nil => simp
  | call ts r₁ _ alloc h hn =>
    have ht : Tally doc.length (ts.map Token.kind) r₁ := by
      refine h.tally hs.tally (fun p t q e => hc p t (q ++ [r'.current]) (by rw [e]; simp)) fun t ht hk => ?_
      obtain ⟨p, q, e⟩ := List.append_of_mem ht
      have := he p t (q ++ [r'.current]) (by rw [e]; simp) hk
      simp at this
    rcases nextToken_move hn with ⟨h, _⟩ | ⟨_, h1, h2, _⟩
    · cases h
    · have := ht.live h2 h1
      rw [List.length_map] at this
      rw [List.length_append, List.length_singleton]
      omega

theorem sample_reads : Reads sample [(after 1 sample).current, (after 2 sample).current, (after 3 sample).current] (after 3 sample) := by
  have h1 := Reads.call [] sample (after 1 sample) rich .nil (by decide +kernel)
  have h2 := Reads.call _ _ (after 2 sample) rich h1 (by decide +kernel)
  exact Reads.call _ _ (after 3 sample) rich h2 (by decide +kernel)

example : (∀ p t q, [(after 1 sample).current, (after 2 sample).current, (after 3 sample).current] = p ++ t :: q →
    t.kind = .tagClose → (p.map Token.kind).count .tagClose < (p.map Token.kind).count .tagOpen) ∧
    (∀ p t q, [(after 1 sample).current, (after 2 sample).current, (after 3 sample).current] = p ++ t :: q → t.kind = .error → q = []) := by
  have hk : [(after 1 sample).current, (after 2 sample).current, (after 3 sample).current].map Token.kind =
      [.tagOpen, .tagClose, .eof] := by decide +kernel
  refine ⟨fun p t q e ht => ?_, fun p t q e ht => ?_⟩
  · rw [e, List.map_append, List.map_cons, ht] at hk
    generalize p.map Token.kind = ks at *
    match ks, hk with
    | [.tagOpen], _ => decide
    | [.tagOpen, .tagClose, .eof], h => simp at h
  · rw [e, List.map_append, List.map_cons, ht] at hk
    have : Kind.error ∈ ([.tagOpen, .tagClose, .eof] : List Kind) := by rw [← hk]; simp
    simp at this

/-- **C134** is false of a document that begins with a closing tag: when no tag is open, line 1044 returns the token without storing
the tokenizer and without an error, so that every call delivers it again. -/
theorem C134_not_ends : ∃ doc flags r, Started doc flags r ∧ ∀ n, ∃ ts r', ts.length = n ∧ Reads r ts r' ∧
    ∀ t ∈ ts, t.kind = .tagClose := by
  refine ⟨ascii "</a>", {}, makeReader (ascii "</a>") {}, .fresh, fun n => ?_⟩
  have h0 : nextToken rich (makeReader (ascii "</a>") {}) = .ok (true, after 1 (makeReader (ascii "</a>") {})) := by decide +kernel
  have h1 : nextToken rich (after 1 (makeReader (ascii "</a>") {})) = .ok (true, after 1 (makeReader (ascii "</a>") {})) := by
    decide +kernel
  have hk : (after 1 (makeReader (ascii "</a>") {})).current.kind = .tagClose := by decide +kernel
  cases n with
  | zero => exact ⟨[], _, rfl, .nil, fun t ht => by cases ht⟩
  | succ n =>
    have key : ∃ ts, ts.length = n + 1 ∧ Reads (makeReader (ascii "</a>") {}) ts (after 1 (makeReader (ascii "</a>") {})) ∧
        ∀ t ∈ ts, t.kind = .tagClose := by
      induction n with
      | zero => exact ⟨_, rfl, .call [] _ _ rich .nil h0, fun t ht => by rw [List.mem_singleton.mp ht]; exact hk⟩
      | succ n ih =>
        obtain ⟨ts, h2, h3, h4⟩ := ih
        refine ⟨_, ?_, .call ts _ _ rich h3 h1, fun t ht => ?_⟩
        · rw [List.length_append, h2]; rfl
        · rcases List.mem_append.mp ht with ht | ht
          · exact h4 t ht
          · rw [List.mem_singleton.mp ht]; exact hk
    obtain ⟨ts, h2, h3, h4⟩ := key
    exact ⟨ts, _, h2, h3, h4⟩

/-! ## C135: what is accepted is well-formed -/

theorem Reads.shape_filter {r r' : Reader} {ts : List Token} (h : Reads r ts r') (hr : Shape [] r) :
    Shape ((ts.map Token.kind).filter (· ≠ .error)) r' := by
  induction h with
  | nil => exact hr
  | call ts r' r'' alloc _ hn ih =>
    rcases nextToken_move hn with ⟨h, _⟩ | ⟨_, _, _, hm⟩
    · cases h
    · rw [List.map_append, List.filter_append]
      by_cases hk : r''.current.kind = .error
      · rw [show ([r''.current].map Token.kind).filter (· ≠ .error) = [] by simp [hk], List.append_nil]
        cases hm with
        | fail f c => unfold Shape; rw [c]; trivial
        | eof f c k => rw [hk] at k; cases k
        | stuck f c k => rw [hk] at k; cases k
        | misc f c k => rw [hk] at k; rcases k with k | k <;> cases k
        | text f c k => rw [hk] at k; rcases k with k | k <;> cases k
        | opened f c k => rw [hk] at k; cases k
        | tag f c k => rw [hk] at k; cases k
        | closed f c k => rw [hk] at k; cases k
        | empty f c k => rw [hk] at k; cases k
        | name f c k => rw [hk] at k; cases k
        | last f c k => rw [hk] at k; cases k
        | value f c k => rw [hk] at k; cases k
        | post f c k => rw [hk] at k; rcases k with k | k <;> cases k
        | again f c k hc d o =>
          unfold Shape at ih ⊢
          rw [hc] at ih
          rw [c]
          exact ⟨by rw [d]; exact ih.1, ih.2⟩
      · rw [show ([r''.current].map Token.kind).filter (· ≠ .error) = [r''.current.kind] by simp [hk]]
        exact ih.step hm hk

/-- **C135** When reading has ended and the context is not that of an error, the tokens that were delivered form a document: exactly one
root with comments and processing instructions around it, every opening tag with its attributes and its closing tag, properly nested,
and the end. Missing: that the names of the tags match, see `C135_not_names`. -/
theorem C135_nested_partial {doc : List Byte} {flags : Flags} {alloc : Nat → Bool} {r r' r'' : Reader} {ts : List Token}
    (hs : Started doc flags r) (h : Reads r ts r') (hn : nextToken alloc r' = .ok (false, r'')) (hc : r''.ctx ≠ .error) :
    Document ((ts.map Token.kind).filter (· ≠ .error)) := by
  have hsh := h.shape_filter hs.shape
  rcases nextToken_move hn with ⟨_, h1, h2, _⟩ | ⟨h1, _⟩
  · rw [h2] at hc
    have h1 := h1.resolve_right hc
    unfold Shape at hsh
    rw [h1] at hsh
    exact hsh
  · cases h1

example : Started (ascii "<a></a>") {} sample ∧ nextToken rich (after 3 sample) = .ok (false, after 4 sample) ∧
    (after 4 sample).ctx ≠ .error := ⟨.fresh, by decide +kernel⟩

/-- A closing tag with another name. -/
def crossed : Reader := makeReader (ascii "<a></b>") {}

/-- **C135** is false of the names: the name of a closing tag is not compared with that of the opening tag (lines 1033-1050), so that
`<a></b>` is accepted. -/
theorem C135_not_names : ∃ doc flags r ts r' r'', Started doc flags r ∧ Reads r ts r' ∧ nextToken rich r' = .ok (false, r'') ∧
    r''.ctx ≠ .error ∧ ts.map (fun t => (t.kind, t.contents.text)) = [(.tagOpen, ascii "a"), (.tagClose, ascii "b"), (.eof, [])] := by
  have h1 := Reads.call [] crossed (after 1 crossed) rich .nil (by decide +kernel)
  have h2 := Reads.call _ _ (after 2 crossed) rich h1 (by decide +kernel)
  have h3 := Reads.call _ _ (after 3 crossed) rich h2 (by decide +kernel)
  exact ⟨_, _, crossed, _, _, after 4 crossed, .fresh, h3, by decide +kernel, by decide +kernel, by decide +kernel⟩

/-! ## C136: reading stays inside of the document -/

/-- **C136** `tmxml_read_prolog` ends for every document without failing an assertion or reading behind the document, and the
reader it leaves is at some place of the document. -/
theorem C136_prolog (doc : List Byte) (flags : Flags) :
    ∃ b p r, readProlog (makeReader doc flags) = .ok (b, p, r) ∧ ∃ q, doc = q ++ r.tz.rest := by
  obtain ⟨b, p, t, h1, q, h2, _⟩ := readProlog_ok (makeReader doc flags)
  exact ⟨b, p, _, h1, q, h2⟩

theorem Reads.frame {r r' : Reader} {ts : List Token} (h : Reads r ts r') :
    Adv r.tz r'.tz ∧ r'.flags = r.flags ∧ r.room ≤ r'.room := by
  induction h with
  | nil => exact ⟨Adv.refl _, rfl, Nat.le_refl _⟩
  | call ts r' r'' alloc _ hn ih =>
    obtain ⟨h1, h2, h3⟩ := ih
    have f : Frame r' r'' := by
      rcases nextToken_move hn with ⟨h, _⟩ | ⟨_, _, _, hm⟩
      · cases h
      · cases hm <;> assumption
    exact ⟨h1.trans f.adv, by rw [f.flags, h2], Nat.le_trans h3 f.room⟩

/-- **C136** At any point of reading a document that consists of ASCII characters, has no numeric character references, and has no carriage
returns if newlines are turned into spaces and spaces are not reduced, `nextToken` ends without failing an assertion or reading outside
of the document, whether or not memory can be allocated. Missing: other documents, see `C136_not_asserts`. -/
theorem C136_safe_partial {doc : List Byte} {flags : Flags} {r r' : Reader} {ts : List Token} (hs : Started doc flags r)
    (h : Reads r ts r') (ha : ∀ b ∈ doc, b.toNat < 0x80) (hr : ∀ p q, doc ≠ p ++ ascii "&#" ++ q)
    (hn : flags.reduce = true ∨ flags.newlines = false ∨ (0x0D : Byte) ∉ doc) (alloc : Nat → Bool) :
    ∃ b r'', nextToken alloc r' = .ok (b, r'') ∧ ∃ q, doc = q ++ r''.tz.rest := by
  obtain ⟨h1, h2, h3⟩ := h.frame
  have h4 := hs.adv.trans h1
  have hf := hs.frame
  have hf2 : r.flags = flags := by rw [hf]; rfl
  have hf3 : r.room = 64 := by rw [hf]; rfl
  have hnar : Narrow flags doc := ⟨ha, fun p q e => hr p q (by rw [e]; simp [show ascii "&#" = [0x26, 0x23] by decide]), hn⟩
  obtain ⟨b, r'', h5⟩ := nextToken_ok (alloc := alloc) (r := r') (by omega) (by rw [h2, hf2]; exact hnar.adv h4)
  refine ⟨b, r'', h5, ?_⟩
  have f : Frame r' r'' := by
    rcases nextToken_move h5 with ⟨_, _, _, _, h⟩ | ⟨_, _, _, hm⟩
    · exact h
    · cases hm <;> assumption
  obtain ⟨q, hq, _⟩ := h4.trans f.adv
  exact ⟨q, hq⟩

/-- A document as in the partial theorem, with a text that does not fit into the buffer inside of the reader. -/
def longText : List Byte := ascii "<a>" ++ List.replicate 70 0x78 ++ ascii "</a>"

example : (∀ b ∈ longText, b.toNat < 0x80) ∧ (0x26 : Byte) ∉ longText ∧ (0x0D : Byte) ∉ longText ∧
    (after 2 (makeReader longText {})).room = 71 ∧
    (after 2 (makeReader longText {})).current.contents.text = List.replicate 70 0x78 := by decide +kernel

/-- 63 ASCII characters and one that is encoded with two bytes. -/
def wideText : List Byte := ascii "<a>" ++ List.replicate 63 0x78 ++ [0xC3, 0xA9] ++ ascii "</a>"

/-- **C136** is false of texts that do not fit into the buffer of the reader by less than a character: `tmxml_unescape_string`
writes no part of the last character, leaves room for a byte and reports the size without the terminator; it then fits neither
`*out_written < out_len` nor the assertion in line 1629 when it is done again with a buffer of this size. -/
theorem C136_not_asserts : ∃ doc flags r ts r', Started doc flags r ∧ Reads r ts r' ∧
    nextToken rich r' = .error .assertion :=
  ⟨wideText, {}, makeReader wideText {}, _, after 1 (makeReader wideText {}), .fresh,
    .call [] _ _ rich .nil (by decide +kernel), by decide +kernel⟩

/-! ## C137: locations -/

/-- **C137** After any calls, the line of the tokenizer is the number of newlines (modulo 2^32) of the part of the document that was
read, and the line of a token is the number of newlines in front of some place that is not before where the call that delivered it
began. Missing: columns and offsets, see `C137_not_offset` and `C137_not_column`. -/
theorem C137_lines_partial {doc : List Byte} {flags : Flags} {r r' r'' : Reader} {ts : List Token} {alloc : Nat → Bool}
    (hs : Started doc flags r) (h : Reads r ts r') (hn : nextToken alloc r' = .ok (true, r'')) :
    ∃ read rest, doc = read ++ rest ∧ r'.tz.rest = rest ∧ r'.tz.loc.line = BitVec.ofNat 32 (read.count 0x0A) ∧
      ∃ more left, rest = more ++ left ∧ r''.current.loc.line = BitVec.ofNat 32 ((read ++ more).count 0x0A) := by
  obtain ⟨h1, _⟩ := h.frame
  obtain ⟨p, h2, h3⟩ := hs.adv.trans h1
  have f : Frame r' r'' := by
    rcases nextToken_move hn with ⟨h, _⟩ | ⟨_, _, _, hm⟩
    · cases h
    · cases hm <;> assumption
  obtain ⟨t, ⟨q, h4, h5⟩, h6⟩ := f.loc
  have h3' : r'.tz.loc.line = BitVec.ofNat 32 (p.count 0x0A) := by
    rw [h3]; show 0#32 + _ = _; rw [BitVec.zero_add]
  refine ⟨p, r'.tz.rest, h2, rfl, h3', q, t.rest, h4, ?_⟩
  rw [h6, h5, h3', List.count_append, BitVec.ofNat_add]

example : Started (ascii "\n<a>\n</a>") {} (makeReader (ascii "\n<a>\n</a>") {}) ∧
    nextToken rich (makeReader (ascii "\n<a>\n</a>") {}) = .ok (true, after 1 (makeReader (ascii "\n<a>\n</a>") {})) ∧
    (after 1 (makeReader (ascii "\n<a>\n</a>") {})).current.loc.line = 1 := ⟨.fresh, by decide +kernel⟩

/-- The value of an attribute. -/
def quoted : Reader := makeReader (ascii "<a x='1'></a>") {}

/-- **C137** is false of offsets: lines 400-401 count the bytes of the value of an attribute from behind its opening quote, so that
every offset behind it is too small by one. The closing tag of `<a x='1'></a>` is at the offset 9 (its name at 11), but is
reported at 10. -/
theorem C137_not_offset : ∃ doc flags r ts r', Started doc flags r ∧ Reads r ts r' ∧ r'.current.kind = .tagClose ∧
    (doc.drop r'.current.loc.offset.toNat).take r'.current.loc.length.toNat ≠ r'.current.contents.text := by
  have h1 := Reads.call [] quoted (after 1 quoted) rich .nil (by decide +kernel)
  have h2 := Reads.call _ _ (after 2 quoted) rich h1 (by decide +kernel)
  have h3 := Reads.call _ _ (after 3 quoted) rich h2 (by decide +kernel)
  have h4 := Reads.call _ _ (after 4 quoted) rich h3 (by decide +kernel)
  exact ⟨ascii "<a x='1'></a>", {}, quoted, _, _, .fresh, h4, by decide +kernel⟩

/-- A comment in front of the root. -/
def commented : Reader := makeReader (ascii "<!--b--><a></a>") {}

/-- **C137** is false of columns: line 691 sets the column to the bytes read since the last newline or the beginning of the
comment, and does not add them. The name `a` in `<!--b--><a></a>` is in column 9, but is reported in column 5. -/
theorem C137_not_column : ∃ doc flags r ts r', Started doc flags r ∧ Reads r ts r' ∧ (0x0A : Byte) ∉ doc ∧
    r'.current.kind = .tagOpen ∧ r'.current.loc.column ≠ r'.current.loc.offset ∧ r'.current.loc.offset = 9 ∧
    (doc.drop 9).take r'.current.loc.length.toNat = r'.current.contents.text := by
  have h1 := Reads.call [] commented (after 1 commented) rich .nil (by decide +kernel)
  have h2 := Reads.call _ _ (after 2 commented) rich h1 (by decide +kernel)
  exact ⟨ascii "<!--b--><a></a>", {}, commented, _, _, .fresh, h2, by decide +kernel⟩

end Tm.Xml
