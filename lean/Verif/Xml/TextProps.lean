import Verif.Xml.NarrowLemmas

/-!
# Properties of unescaping (C128–C132)

`unescape f v room` is `tmxml_unescape_string(str, len, flags, out, out_len, &written)` with the flags `f`, the string `v.text` of which
`v.after` follows in memory, and `out_len = room`. It gives the returned value, `written` and the bytes that are in `out` afterwards.
-/

namespace Tm.Xml

open Tm.Uni (utf8 encode Scalars WellFormed)

/-! ## C128: texts are given back -/

/-- Whatever is an escaped form of a text is unescaped to this text, byte for byte, if the buffer is larger than the text and no
trimming is asked for. -/
theorem C128_denotes (f : Flags) (hf : f.left = false ∧ f.right = false ∧ f.reduce = false ∧ f.newlines = false)
    (s after : List Byte) (t : List Nat) (room : Nat) (hs : Denotes s t) (hr : (encode utf8 t).length < room) :
    ∃ r, unescape f ⟨s, after⟩ room = .ok r ∧ r.ok = true ∧ r.written = (encode utf8 t).length ∧
      r.out.take r.written = encode utf8 t := by
  unfold unescape
  rw [trim_none hf.1 hf.2.1]
  dsimp only
  by_cases he : s = []
  · subst he
    have : t = [] := by
      have := hs.length_le
      exact List.length_eq_zero_iff.mp (by simpa using this)
    subst this
    exact ⟨_, rfl, rfl, rfl, rfl⟩
  · rw [if_neg (by simpa using he)]
    have := (hs.runs hf after false).fits (by simpa using hs.length_le) room hr
    unfold unescapeTrimmed
    exact ⟨_, this, rfl, rfl, by dsimp only; rw [List.take_left' rfl]; rfl⟩

/-- `a &lt; "&#x20AC;" &foo;` stands for `a < "€" &foo;`, and this is what comes out. -/
example : Denotes (ascii "&lt;" ++ (ascii "&#x" ++ ascii "20AC" ++ ascii ";" ++ (ascii "&" ++ (utf8 0x66 ++ (utf8 0x3B ++ [])))))
    [0x3C, 0x20AC, 0x26, 0x66, 0x3B] := by
  refine Denotes.entity (ascii "lt;") 0x3C _ _ (by decide) ?_
  refine Denotes.hex _ 0x20AC _ _ ?_ (by decide) (by decide) ?_
  · exact .more (ascii "20A") 0x43 0x20A 12 (.more (ascii "20") 0x41 0x20 10
      (.more (ascii "2") 0x30 2 0 (.one 0x32 2 (.digit 2 (by decide))) (.digit 0 (by decide))) (.upper 0 (by decide)))
      (.upper 2 (by decide))
  · refine Denotes.custom _ _ (by decide) (by decide) (by decide) ?_
    exact Denotes.char 0x66 _ _ (by decide) (by decide) (by decide) (by decide)
      (Denotes.char 0x3B _ _ (by decide) (by decide) (by decide) (by decide) .nil)

example : unescape {} ⟨ascii "&lt;&#x20AC;&f;", []⟩ 10 = .ok { ok := true, written := 7, out := [0x3C, 0xE2, 0x82, 0xAC, 0x26, 0x66, 0x3B, 0] } := by
  decide +kernel

/-- Texts that are not empty are followed by a null terminator. What is missing: empty texts, see `C128_not_terminated`. -/
theorem C128_terminated_partial (f : Flags) (v : View) (room : Nat) (r : Result) (h : unescape f v room = .ok r)
    (hok : r.ok = true) (hw : r.written < room) (h0 : 0 < r.written) :
    r.out.length = r.written + 1 ∧ r.out[r.written]? = some 0 := by
  unfold unescape at h
  dsimp only at h
  split at h
  · cases h; simp at h0
  · unfold unescapeTrimmed at h
    obtain ⟨res, hres⟩ := loop_blind (unescStep f (trim f v).after) (unescStep_blind f (trim f v).after)
      ((trim f v).text.length + 1) (start (trim f v).text false)
    rw [hres _ rfl] at h
    cases res with
    | error e => cases h
    | ok p =>
      obtain ⟨o, ps⟩ := p
      have h := Except.ok.inj h
      subst h
      unfold conclude at hok hw h0 ⊢
      cases o <;> dsimp only at hok hw h0 ⊢
      · split at hw
        · rename_i hr
          rw [if_pos hr]
          dsimp only at hw ⊢
          rw [emits_size] at hw ⊢
          dsimp only at hw ⊢
          obtain ⟨h1, h2⟩ := emits_fit ps { cur := (trim f v).text, prev := (trim f v).text, last := false, out := [], room := room, size := 0 } (by show _ ≤ room; omega)
          rw [h1]
          constructor
          · simp
          · simp
        · dsimp only at hw
          rw [emits_size] at hw
          dsimp only at hw
          rename_i hr
          obtain ⟨h1, h2⟩ := emits_fit ps { cur := (trim f v).text, prev := (trim f v).text, last := false, out := [], room := room, size := 0 } (by show _ ≤ room; omega)
          exfalso; apply hr; rw [h2]; dsimp only; omega
      · split at hok <;> simp at hok
      · simp at hok

example : unescape {} ⟨ascii "a&amp;b", []⟩ 5 = .ok { ok := true, written := 3, out := ascii "a&b" ++ [0] } := by decide +kernel

/-- "The output will be nullterminated if the buffer is big enough" is false of the empty text: nothing is written. -/
theorem C128_not_terminated : unescape {} ⟨[], []⟩ 100 = .ok { ok := true, written := 0, out := [] } := by decide +kernel

/-! ## C129: nothing else is accepted -/

/-- Whatever is accepted is an escaped form of some text. What is missing: strings that are not valid UTF-8 (`C129_not_utf8`),
decimal character references of 2^32 and more (`C129_not_wrap`), and comments, in which "<" and "]]>" are accepted as they should be. -/
theorem C129_accepted_partial (f : Flags) (hc : f.comment = false) (hl : f.left = false) (hr : f.right = false)
    (s after : List Byte) (room : Nat) (hs : WellFormed utf8 s)
    (hn : ∀ (p ds q : List Byte) (n : Nat), s = p ++ ascii "&#" ++ ds ++ ascii ";" ++ q → Numeral DecDigit 10 ds n → n < 2 ^ 32)
    (r : Result) (h : unescape f ⟨s, after⟩ room = .ok r) (hok : r.ok = true) : ∃ t, Denotes s t := by
  unfold unescape at h
  rw [trim_none hl hr] at h
  dsimp only at h
  by_cases he : s = []
  · subst he; exact ⟨[], .nil⟩
  · rw [if_neg (by simpa using he)] at h
    exact loop_sound hc after _ _ r h hok hs hn

/-- Bare ampersands, angle brackets, references to characters that XML has not, and "]]>" are rejected. -/
example : (["a & b", "a < b", "&#0;", "&#xD800;", "&#x110000;", "a]]>b", "&#;", "&#x;", "&#12a;"].all fun s =>
    ((unescape {} ⟨ascii s, []⟩ 100).toOption.map Result.ok) == some false) = true := by decide +kernel

/-- `&#4294967361;` is accepted and gives "A". -/
theorem C129_not_wrap :
    unescape {} ⟨ascii "&#4294967361;", []⟩ 100 = .ok { ok := true, written := 1, out := [0x41, 0] } ∧
    ¬ XmlChar 4294967361 := by
  constructor
  · decide +kernel
  · decide

/-- A byte that begins a sequence of two hides the "<" that follows it. -/
theorem C129_not_utf8 :
    unescape {} ⟨[0xC3, 0x3C], []⟩ 100 = .ok { ok := true, written := 2, out := [0xC3, 0x3C, 0] } := by
  decide +kernel

/-! ## C130: the size that is reported -/

/-- A buffer that was large enough, by `written < out_len`, holds the text: every other buffer of more than `written` bytes gets the
same text, and no smaller one passes for large enough. What is accepted does not depend on the buffer. -/
theorem C130_fits (f : Flags) (v : View) (n : Nat) (r : Result) (h : unescape f v n = .ok r) (m : Nat) (r' : Result)
    (h' : unescape f v m = .ok r') :
    r'.ok = r.ok ∧ (r.ok = true → r.written < n → (r.written < m → r' = r) ∧ (m ≤ r.written → m ≤ r'.written)) := by
  unfold unescape at h h'
  dsimp only at h h'
  split at h
  · rename_i he
    rw [if_pos he] at h'
    cases h; cases h'
    exact ⟨rfl, fun _ _ => ⟨fun _ => rfl, id⟩⟩
  · rename_i he
    rw [if_neg he] at h'
    unfold unescapeTrimmed at h h'
    obtain ⟨res, hres⟩ := loop_blind (unescStep f (trim f v).after) (unescStep_blind f (trim f v).after)
      ((trim f v).text.length + 1) (start (trim f v).text false)
    rw [hres _ rfl] at h h'
    cases res with
    | error e => cases h
    | ok p =>
      obtain ⟨o, ps⟩ := p
      have h := Except.ok.inj h
      have h' := Except.ok.inj h'
      dsimp only at h h'
      subst h; subst h'
      have big : ∀ n o', o' ≠ Outcome.failed → ps.flatten.length < n → conclude (Unesc.mk (trim f v).text (trim f v).text false [] n 0) o' ps =
          { ok := o' = .done, written := ps.flatten.length, out := ps.flatten ++ [0] } := by
        intro n o' ho hn
        obtain ⟨h1, h2⟩ := emits_fit ps (Unesc.mk (trim f v).text (trim f v).text false [] n 0) (by show _ ≤ n; omega)
        unfold conclude
        rw [h1, h2, emits_size]
        cases o' <;> dsimp only
        · rw [if_pos (by omega)]; simp
        · rw [if_pos (by omega)]; simp
        · exact absurd rfl ho
      have small : ∀ n o', o' ≠ Outcome.failed → ps.flatten.length ≤
          (conclude (Unesc.mk (trim f v).text (trim f v).text false [] n 0) o' ps).written := by
        intro n o' ho
        unfold conclude
        rw [emits_size]
        cases o' <;> dsimp only
        · split <;> dsimp only <;> omega
        · split <;> dsimp only <;> omega
        · exact absurd rfl ho
      have hok : ∀ n, (conclude (Unesc.mk (trim f v).text (trim f v).text false [] n 0) o ps).ok = decide (o = .done) := by
        intro n
        unfold conclude
        cases o <;> dsimp only
        · split <;> rfl
        · split <;> rfl
        · rfl
      refine ⟨by rw [hok, hok], fun h1 hw => ?_⟩
      rw [hok, decide_eq_true_eq] at h1
      subst h1
      have hn := small n .done nofun
      have e := big n .done nofun (by omega)
      rw [e] at hw ⊢
      dsimp only at hw ⊢
      exact ⟨fun hm => big m .done nofun hm, fun hm => Nat.le_trans hm (small m .done nofun)⟩

example : unescape {} ⟨ascii "a&lt;b", []⟩ 3 = .ok { ok := true, written := 4, out := ascii "a<b" } ∧
    unescape {} ⟨ascii "a&lt;b", []⟩ 4 = .ok { ok := true, written := 3, out := ascii "a<b" ++ [0] } := by
  constructor <;> decide +kernel

/-- The size that is reported when the buffer was too small is enough: a buffer of this size gets the text, which is one byte shorter.
What is missing: texts that need more than one byte for a character, see `C130_not_needed`; the empty text, for which the size 0 is
reported; and carriage returns when newlines are turned into spaces. -/
theorem C130_needed_partial (f : Flags) (v : View) (n : Nat) (r : Result) (h : unescape f v n = .ok r)
    (hok : r.ok = true) (hw : n ≤ r.written) (h0 : 0 < r.written)
    (hb : ∀ b ∈ v.text, b.toNat < 0x80) (ha : ∀ p q, v.text ≠ p ++ ascii "&#" ++ q)
    (hcr : f.reduce = true ∨ f.newlines = false ∨ (0x0D : Byte) ∉ v.text) :
    ∃ r', unescape f v r.written = .ok r' ∧ r'.ok = true ∧ r'.written + 1 = r.written := by
  have sub : ∃ p q, v.text = p ++ ((trim f v).text ++ q) := by
    have hl : ∀ w : View, ∃ p, w.text = p ++ (trimLeft w).text := fun w =>
      ⟨w.text.takeWhile isSpace, by unfold trimLeft; simp⟩
    have hr : ∀ w : View, ∃ q, w.text = (trimRight w).text ++ q := fun w =>
      ⟨(w.text.reverse.takeWhile isSpace).reverse, by
        unfold trimRight
        dsimp only
        rw [← List.reverse_append, List.takeWhile_append_dropWhile, List.reverse_reverse]⟩
    unfold trim
    dsimp only
    cases f.left <;> cases f.right <;> simp only [if_true, Bool.false_eq_true, if_false]
    · exact ⟨[], [], by simp⟩
    · obtain ⟨q, hq⟩ := hr v; exact ⟨[], q, by simpa using hq⟩
    · obtain ⟨p, hp⟩ := hl v; exact ⟨p, [], by simpa using hp⟩
    · obtain ⟨p, hp⟩ := hl v
      obtain ⟨q, hq⟩ := hr (trimLeft v)
      exact ⟨p, q, by rw [← hq, ← hp]⟩
  have hn : Narrow f (trim f v).text := by
    obtain ⟨p, q, e⟩ := sub
    refine ⟨fun b h => hb b (by rw [e]; simp [h]), fun p' q' e' => ha (p ++ p') (q' ++ q) ?_,
      hcr.imp id fun h => h.imp id fun h hm => h (by rw [e]; exact List.mem_append_right _ (List.mem_append_left _ hm))⟩
    rw [e, e', ascii_ref]; simp
  unfold unescape at h ⊢
  dsimp only at h ⊢
  split at h
  · cases h; simp at h0
  · rename_i he
    rw [if_neg he]
    unfold unescapeTrimmed at h ⊢
    obtain ⟨o, ps, hr, hl, hp⟩ := runs_small (f := f) (step := unescStep f (trim f v).after)
      (fun b s last h => unescStep_small h) _ (trim f v).text false (Nat.le_refl _) hn
    have L := fun room => hr.loop ((trim f v).text.length + 1) (by omega) (Unesc.mk (trim f v).text (trim f v).text false [] room 0) rfl
    rw [L] at h ⊢
    have h := Except.ok.inj h
    have val : ∀ room, conclude (Unesc.mk (trim f v).text (trim f v).text false [] room 0) .done ps =
        if ps.flatten.length < room then
          { ok := true, written := ps.flatten.length, out := (emits (Unesc.mk (trim f v).text (trim f v).text false [] room 0) ps).out ++ [0] }
        else { ok := true, written := ps.flatten.length + 1, out := (emits (Unesc.mk (trim f v).text (trim f v).text false [] room 0) ps).out } := by
      intro room
      unfold conclude
      dsimp only
      rw [emits_size, emits_single ps hp]
      dsimp only
      by_cases hr : ps.flatten.length < room
      · rw [if_pos hr, if_pos (by omega)]; simp
      · rw [if_neg hr, if_neg (by omega)]; simp
    subst h
    have ho : o = .done := by
      unfold conclude at hok
      cases o <;> dsimp only at hok
      · rfl
      · split at hok <;> simp at hok
      · simp at hok
    subst ho
    refine ⟨_, rfl, ?_⟩
    rw [val n] at hw ⊢
    have hlt : ¬ ps.flatten.length < n := by
      intro hlt
      rw [if_pos hlt] at hw
      dsimp only at hw; omega
    rw [if_neg hlt]
    dsimp only
    rw [val, if_pos (by omega)]
    exact ⟨rfl, rfl⟩

/-- For a text of which the last character needs two bytes, the reported size is one less than what is needed when the buffer ends
inside of it: the second call, with the reported size, fails again. -/
theorem C130_not_needed :
    unescape {} ⟨[0x61, 0xC3, 0xA9], []⟩ 2 = .ok { ok := true, written := 3, out := [0x61, 0] } ∧
    unescape {} ⟨[0x61, 0xC3, 0xA9], []⟩ 3 = .ok { ok := true, written := 4, out := [0x61, 0xC3, 0xA9] } := by
  constructor <;> decide +kernel

/-! ## C131: memory -/

/-- No more bytes are written than the buffer has. -/
theorem C131_writes (f : Flags) (v : View) (n : Nat) (r : Result) (h : unescape f v n = .ok r) : r.out.length ≤ n := by
  unfold unescape at h
  dsimp only at h
  split at h
  · cases h; simp
  · unfold unescapeTrimmed at h
    obtain ⟨res, hres⟩ := loop_blind (unescStep f (trim f v).after) (unescStep_blind f (trim f v).after)
      ((trim f v).text.length + 1) (start (trim f v).text false)
    rw [hres _ rfl] at h
    cases res with
    | error e => cases h
    | ok p =>
      obtain ⟨o, ps⟩ := p
      have h := Except.ok.inj h
      subst h
      have hl := emits_length ps (Unesc.mk (trim f v).text (trim f v).text false [] n 0)
      simp only [List.length_nil, Nat.zero_add] at hl
      unfold conclude
      cases o <;> dsimp only
      · split
        · simp only [List.length_append, List.length_cons, List.length_nil]; omega
        · dsimp only; omega
      · split
        · simp only [List.length_append, List.length_cons, List.length_nil]; omega
        · dsimp only; omega
      · omega

/-- The function ends, for every string, and reads nothing behind it, unless newlines are turned into spaces. What is missing: with
this flag, the byte behind the string must be readable, see `C131_not_reads`. -/
theorem C131_reads_partial (f : Flags) (v : View) (n : Nat) (h : v.after ≠ [] ∨ f.reduce = true ∨ f.newlines = false) :
    ∃ r, unescape f v n = .ok r := by
  unfold unescape
  dsimp only
  split
  · exact ⟨_, rfl⟩
  · unfold unescapeTrimmed
    refine loop_ok _ (fun u cp => unescStep_tame ?_ u cp) _ _ (Nat.lt_succ_self _)
    exact h.imp (trim_after f v) id

example : unescape { newlines := true } ⟨[0x61, 0x0D, 0x62], [0]⟩ 9 = .ok { ok := true, written := 3, out := [0x61, 0x20, 0x62, 0] } := by
  decide +kernel

/-- For "\rx" in two bytes, with newlines turned into spaces, the byte behind the string is read. -/
theorem C131_not_reads : unescape { newlines := true } ⟨[0x0D, 0x78], []⟩ 9 = .error .oob := by decide +kernel

/-! ## C132: whitespace -/

/-- With the flag for reducing spaces, every run of whitespace becomes one space, and what is trimmed at both ends is the whitespace
there. What is missing: escapes and brackets, after which `last_was_whitespace` is not reset (`C132_not_reduce`), and carriage
returns if newlines are kept. -/
theorem C132_reduce_partial (f : Flags) (hr : f.reduce = true) (t : List Nat)
    (ht : ∀ c ∈ t, XmlChar c ∧ c ≠ 0x26 ∧ c ≠ 0x3C ∧ c ≠ 0x5D) (hn : f.newlines = true ∨ 0x0D ∉ t) (after : List Byte) (room : Nat)
    (hroom : (encode utf8 (collapse (strip f.left f.right t))).length < room) :
    ∃ r, unescape f ⟨encode utf8 t, after⟩ room = .ok r ∧ r.ok = true ∧
      r.out.take r.written = encode utf8 (collapse (strip f.left f.right t)) := by
  have ht' : PlainText (strip f.left f.right t) := fun c hc => ht c (strip_subset hc)
  have hs : Scalars t := fun c hc => (ht c hc).1.scalar
  unfold unescape
  dsimp only
  rw [trim_encode f t hs]
  split
  · rename_i he
    rw [encode_isEmpty, List.isEmpty_iff] at he
    refine ⟨_, rfl, rfl, ?_⟩
    rw [he]; simp [collapse, encode]
  · unfold unescapeTrimmed
    rw [trim_encode f t hs]
    obtain ⟨ps, h1, h2, h3⟩ := runs_reduce hr (trim f ⟨encode utf8 t, after⟩).after (strip f.left f.right t) ht'
      (hn.imp id fun h hm => h (strip_subset hm)) false
    simp only [Bool.false_eq_true, if_false] at h3
    rw [h1.fits (by rw [h2]; exact encode_length_le _) room (by rw [h3]; exact hroom)]
    exact ⟨_, rfl, rfl, by dsimp only; rw [List.take_left' rfl, h3]⟩

example : collapse (strip true true [0x20, 0x61, 0x09, 0x0A, 0x62, 0x0A]) = [0x61, 0x20, 0x62] := by decide +kernel
example : unescape { left := true, right := true, reduce := true } ⟨[0x20, 0x61, 0x09, 0x0A, 0x62, 0x0A], []⟩ 9 =
    .ok { ok := true, written := 3, out := [0x61, 0x20, 0x62, 0] } := by decide +kernel

/-- "x ] y" loses the space in front of the "y", "x &lt; y" as well. -/
theorem C132_not_reduce :
    unescape { reduce := true } ⟨ascii "x ] y", []⟩ 9 = .ok { ok := true, written := 4, out := ascii "x ]y" ++ [0] } ∧
    unescape { reduce := true } ⟨ascii "x &lt; y", []⟩ 9 = .ok { ok := true, written := 4, out := ascii "x <y" ++ [0] } := by
  constructor <;> decide +kernel

/-- With the flag for trimming newlines alone, every newline becomes a space, everything else is kept. What is missing: escapes,
brackets and carriage returns (`C132_not_newlines`). -/
theorem C132_newlines_partial (f : Flags) (hr : f.reduce = false) (hl : f.newlines = true) (t : List Nat)
    (ht : ∀ c ∈ t, XmlChar c ∧ c ≠ 0x26 ∧ c ≠ 0x3C ∧ c ≠ 0x5D) (hn : 0x0D ∉ t) (after : List Byte) (room : Nat)
    (hroom : (encode utf8 ((strip f.left f.right t).map fun c => if c = 0x0A then 0x20 else c)).length < room) :
    ∃ r, unescape f ⟨encode utf8 t, after⟩ room = .ok r ∧ r.ok = true ∧
      r.out.take r.written = encode utf8 ((strip f.left f.right t).map fun c => if c = 0x0A then 0x20 else c) := by
  have ht' : PlainText (strip f.left f.right t) := fun c hc => ht c (strip_subset hc)
  have hs : Scalars t := fun c hc => (ht c hc).1.scalar
  unfold unescape
  dsimp only
  rw [trim_encode f t hs]
  split
  · rename_i he
    rw [encode_isEmpty, List.isEmpty_iff] at he
    refine ⟨_, rfl, rfl, ?_⟩
    rw [he]; rfl
  · unfold unescapeTrimmed
    rw [trim_encode f t hs]
    have h1 := runs_newlines hr hl (trim f ⟨encode utf8 t, after⟩).after (strip f.left f.right t) ht'
      (fun hm => hn (strip_subset hm)) false
    rw [h1.fits (by simpa using encode_length_le _) room hroom]
    exact ⟨_, rfl, rfl, by dsimp only; rw [List.take_left' rfl]; rfl⟩

example : unescape { newlines := true, right := true } ⟨ascii "a\n\nb \n", []⟩ 9 = .ok { ok := true, written := 4, out := ascii "a  b" ++ [0] } := by
  decide +kernel

/-- "a\r\nb" becomes "a", two spaces, "b"; and "a\rx\nb" keeps its carriage return. -/
theorem C132_not_newlines :
    unescape { newlines := true } ⟨ascii "a\r\nb", []⟩ 9 = .ok { ok := true, written := 4, out := ascii "a  b" ++ [0] } ∧
    unescape { newlines := true } ⟨ascii "a\rx\nb", []⟩ 9 = .ok { ok := true, written := 5, out := ascii "a\rx b" ++ [0] } := by
  constructor <;> decide +kernel

/-- With the flags for the two ends alone, the whitespace at these ends is taken away, and everything else is unescaped as without
these flags: `l` is the whitespace at the beginning, `r` that at the end. -/
theorem C132_trim (f : Flags) (hf : f.reduce = false ∧ f.newlines = false) (l m r after : List Byte) (t : List Nat)
    (hl : ∀ b ∈ l, Blank b.toNat) (hr : ∀ b ∈ r, Blank b.toNat)
    (hl0 : f.left = false → l = []) (hr0 : f.right = false → r = [])
    (hl1 : f.left = true → ∀ b, m.head? = some b → ¬ Blank b.toNat)
    (hr1 : f.right = true → ∀ b, m.getLast? = some b → ¬ Blank b.toNat)
    (hm : Denotes m t) (room : Nat) (hroom : (encode utf8 t).length < room) :
    ∃ res, unescape f ⟨l ++ m ++ r, after⟩ room = .ok res ∧ res.ok = true ∧ res.written = (encode utf8 t).length ∧
      res.out.take res.written = encode utf8 t := by
  have he : (trim f ⟨l ++ m ++ r, after⟩).text = m := trim_parts hl hr hl0 hr0 hl1 hr1 after
  have hv : Flags.Verbatim { f with left := false, right := false } := ⟨rfl, rfl, hf.1, hf.2⟩
  obtain ⟨res, h1, h2⟩ := C128_denotes { f with left := false, right := false } hv m
    (trim f ⟨l ++ m ++ r, after⟩).after t room hm hroom
  refine ⟨res, ?_, h2⟩
  rw [← h1]
  unfold unescape
  rw [trim_none (f := { f with left := false, right := false }) rfl rfl]
  dsimp only
  rw [he]
  split
  · rfl
  · unfold unescapeTrimmed
    rw [he]
    rfl

example : unescape { left := true, right := true } ⟨ascii " \n &lt; a ] \t", []⟩ 9 = .ok { ok := true, written := 5, out := ascii "< a ]" ++ [0] } := by
  decide +kernel

end Tm.Xml
