import Verif.Xml.ForwardLemmas

/-!
Reading the parts of a well-formed document, token by token.
-/

namespace Tm.Xml

open Tm.Uni (utf8 encode)

/-- A token is as expected. -/
def Is (tok : Token) (k : Tok) : Prop := tok.kind = k.1 ∧ tok.contents.text = k.2.1 ∧ tok.loc.line = BitVec.ofNat 32 k.2.2

/-- Calls that deliver the expected tokens. -/
inductive Steps : Reader → List Tok → Reader → Prop
  | nil (r : Reader) : Steps r [] r
  | cons (r r' r'' : Reader) (k : Tok) (ks : List Tok) :
    nextToken rich r = .ok (true, r') → Is r'.current k → Steps r' ks r'' → Steps r (k :: ks) r''

theorem Steps.trans {a b c : Reader} {ks ls : List Tok} (h : Steps a ks b) (h' : Steps b ls c) : Steps a (ks ++ ls) c := by
  induction h with
  | nil => exact h'
  | cons r r' r'' k ks h1 h2 _ ih => exact .cons _ _ _ _ _ h1 h2 (ih h')

/-- The reader is at `s`, in front of which there are `n` newlines, inside of `d` elements. -/
structure St (r : Reader) (c : Ctx) (d n : Nat) (s : List Byte) : Prop where
  ctx : r.ctx = c
  depth : r.depth = d
  flags : r.flags.Verbatim
  room : 64 ≤ r.room
  rest : r.tz.rest = s
  line : r.tz.loc.line = BitVec.ofNat 32 n

/-- A call comes to the markup `x`. -/
structure Entry (r s : Reader) (t : Tz) (d n : Nat) (x : List Byte) : Prop where
  call : nextToken rich r = readMarkup rich s t
  depth : s.depth = d
  flags : s.flags.Verbatim
  room : 64 ≤ s.room
  root : s.rootFound = r.rootFound
  rest : t.rest = x
  line : t.loc.line = BitVec.ofNat 32 n

theorem entry_content {r : Reader} {d n : Nat} {x : List Byte} (h : St r .content d n (0x3C :: x)) :
    ∃ s t, Entry r s t d n (0x3C :: x) := by
  refine ⟨{ r with ctx := .error, current := makeError r.tz }, r.tz, ?_, h.depth, h.flags, h.room, rfl, h.rest, h.line⟩
  unfold nextToken
  rw [h.ctx]
  dsimp only
  unfold readContent
  rw [if_neg (by rw [h.rest]; exact (by decide : ¬ (0x3C : Byte) = 0)), if_pos (by rw [h.rest]; rfl)]

/-- In front of the root, up to whitespace. -/
theorem entry_before {r : Reader} {c : Ctx} {n : Nat} {w x : List Byte} (h : St r c 0 n (w ++ 0x3C :: x)) (hr : r.rootFound = false)
    (hc : c = .none ∨ c = .content) (hw : Space w) : ∃ s t, Entry r s t 0 (n + newlines w) (0x3C :: x) := by
  obtain ⟨t, h1, h2, h3⟩ := hw.skip h.rest (by decide) (by decide)
  have hl := h3.line h.line (p := w) (by rw [h.rest, h2])
  rcases hc with rfl | rfl
  · refine ⟨{ r with ctx := .error, current := makeError r.tz }, t, ?_, h.depth, h.flags, h.room, rfl, h2, hl⟩
    unfold nextToken
    rw [h.ctx]
    dsimp only
    rw [h1]
    dsimp only
    rw [if_neg (by rw [h2]; exact (fun h => h rfl))]
    unfold readContent
    rw [if_neg (by rw [h2]; exact (by decide : ¬ (0x3C : Byte) = 0)), if_pos (by rw [h2]; rfl)]
  · by_cases he : w = []
    · subst he
      exact entry_content h
    · refine ⟨{ r with ctx := .error, current := makeError r.tz, tz := t }, t, ?_, h.depth, h.flags, h.room, rfl, h2, hl⟩
      unfold nextToken
      rw [h.ctx]
      dsimp only
      obtain ⟨b, w', rfl⟩ := List.exists_cons_of_ne_nil he
      have hb := hw.bytes b (List.mem_cons_self ..)
      have hb0 : b ≠ 0 := by rintro rfl; revert hb; decide
      have hb1 : b ≠ 0x3C := by rintro rfl; revert hb; decide
      unfold readContent
      rw [if_neg (by rw [h.rest]; exact hb0), if_neg (by rw [h.rest]; exact hb1), if_pos (by simp [hr]), h1]
      dsimp only
      rw [if_neg (by rw [h2]; exact (fun h => h rfl)), h.rest]
      show readContent rich (w' ++ 0x3C :: x).length.succ _ t = _
      unfold readContent
      rw [if_neg (by rw [h2]; exact (by decide : ¬ (0x3C : Byte) = 0)), if_pos (by rw [h2]; rfl)]

/-- The reader is behind a name or a value of a tag, in front of `y`. -/
def Tail (r : Reader) (d n : Nat) (y : List Byte) : Prop :=
  match y.dropWhile isSpace with
  | [] => False
  | b :: z =>
    if b = 0x3E then St r .content (d + 1) (n + newlines (y.takeWhile isSpace ++ [b])) z
    else St r .insideTag d (n + newlines (y.takeWhile isSpace)) (b :: z)

theorem Tail.close {r : Reader} {d n : Nat} {w z : List Byte} (h : Tail r d n (w ++ 0x3E :: z)) (hw : Space w) :
    St r .content (d + 1) (n + newlines (w ++ ascii ">")) z := by
  obtain ⟨e1, e2⟩ := take_append (p := isSpace) (a := w) (b := 0x3E) (s := z) hw.bytes (by decide)
  unfold Tail at h
  rw [e1, e2] at h
  exact h

theorem Tail.more {r : Reader} {d n : Nat} {w z : List Byte} {b : Byte} (h : Tail r d n (w ++ b :: z)) (hw : Space w)
    (hb : isSpace b = false) (hb' : b ≠ 0x3E) : St r .insideTag d (n + newlines w) (b :: z) := by
  obtain ⟨e1, e2⟩ := take_append (p := isSpace) (a := w) (b := b) (s := z) hw.bytes hb
  unfold Tail at h
  rw [e1, e2] at h
  dsimp only at h
  rw [if_neg hb'] at h
  exact h

theorem advance_first {t : Tz} {b : Byte} {x : List Byte} (h : t.rest = b :: x) (h0 : b ≠ 0) (hn : b ≠ 0x0A) :
    ∃ t', advance t 1 = .ok t' ∧ t'.rest = x ∧ Adv t t' := by
  obtain ⟨t', h1, h2, h3⟩ := advance_one (t := t) (b := b) (by rw [h]; rfl) h0 hn
  rw [h] at h2
  exact ⟨t', h1, (List.cons.inj h2).2.symm, h3⟩

theorem Name.cons {name : List Byte} (h : Name name) : ∃ b q, name = b :: q ∧ isSpace b = false ∧ b ≠ 0x3E ∧ b ≠ 0x2F ∧ b ≠ 0x21 ∧ b ≠ 0x3F ∧ b ≠ 0 := by
  obtain ⟨b, q, rfl⟩ := List.exists_cons_of_ne_nil h.ne_nil
  obtain ⟨h1, h2, h3, h4, h5, h6⟩ := h.bytes b (List.mem_cons_self ..)
  exact ⟨b, q, rfl, h2, h3, h4, h5, by rintro rfl; revert h1; decide, h6⟩

/-- An opening tag. `y` is what follows the name: whitespace, and then something. -/
theorem open_step {r s : Reader} {t : Tz} {d n : Nat} {name w : List Byte} {b : Byte} {z : List Byte}
    (h : Entry r s t d n (0x3C :: (name ++ (w ++ b :: z)))) (hname : Name name) (hw : Space w) (hb : isSpace b = false) (hb0 : b ≠ 0)
    (hw' : w ≠ [] ∨ nameEnd b = true) :
    ∃ r', nextToken rich r = .ok (true, r') ∧ Is r'.current (.tagOpen, name, n) ∧
      Tail r' d (n + newlines (ascii "<" ++ name)) (w ++ b :: z) ∧ r'.rootFound = true ∧ (b = 0x2F → r'.currentTag.text = name) := by
  obtain ⟨c, q, hc, hc1, hc2, hc3, hc4, hc5, hc6⟩ := hname.cons
  obtain ⟨t1, e1, r1, a1⟩ := advance_first h.rest (by decide) (by decide)
  have hend : ∃ b' z', w ++ b :: z = b' :: z' ∧ nameEnd b' = true := by
    cases w with
    | nil => exact ⟨b, z, rfl, hw'.resolve_left (fun h => h rfl)⟩
    | cons b' w =>
      refine ⟨b', w ++ b :: z, rfl, ?_⟩
      rcases hw b' (List.mem_cons_self ..) with rfl | rfl | rfl | rfl <;> decide
  obtain ⟨b', z', hz, hb'⟩ := hend
  obtain ⟨t2, tok, e2, r2, a2, k2, c2, l2⟩ := hname.parse (t := t1) (b := b') (y := z') (by rw [r1, hz]) hb'
  rw [← hz] at r2
  obtain ⟨t3, e3, r3, a3⟩ := hw.skip r2 hb hb0
  have l1 := a1.line h.line (p := [0x3C]) (by rw [h.rest, r1]; rfl)
  have l2' := a2.line l1 (p := name) (by rw [r1, r2])
  have l3 := a3.line l2' (p := w) (by rw [r2, r3])
  obtain ⟨e4, e5⟩ := take_append (p := isSpace) (a := w) (b := b) (s := z) hw.bytes hb
  have hcall : nextToken rich r = readOpen s t1 := by
    rw [h.call]
    unfold readMarkup
    rw [e1]
    simp only [ok_bind]
    have hd : deref t1.rest = c := by rw [r1, hc]; rfl
    rw [hd, if_neg hc6, if_neg hc4, if_neg hc5, if_neg hc3]
  rw [hcall]
  unfold readOpen
  rw [e2]
  simp only [ok_bind, k2, reduceCtorEq, if_false]
  rw [e3]
  simp only [ok_bind]
  have hd : deref t3.rest = b := by rw [r3]; rfl
  rw [hd]
  have hl : tok.loc.line = BitVec.ofNat 32 n := by rw [l2, l1, show newlines [0x3C] = 0 from rfl, Nat.add_zero]
  have hn : n + newlines (ascii "<" ++ name) = n + newlines [0x3C] + newlines name := by
    rw [newlines_append, show ascii "<" = [0x3C] by decide]; omega
  by_cases hgt : b = 0x3E
  · subst hgt
    rw [if_pos rfl]
    obtain ⟨t4, e6, r4, a4⟩ := advance_first r3 (by decide) (by decide)
    have l4 := a4.line l3 (p := [0x3E]) (by rw [r3, r4]; rfl)
    rw [e6]
    refine ⟨_, rfl, ⟨k2, c2, hl⟩, ?_, rfl, fun h => absurd h (by decide)⟩
    unfold Tail
    rw [e4, e5]
    dsimp only
    rw [if_pos rfl]
    refine ⟨rfl, by show s.depth + 1 = _; rw [h.depth], h.flags, h.room, r4, ?_⟩
    rw [hn, newlines_append, ← Nat.add_assoc]; exact l4
  · rw [if_neg hgt]
    have tail : ∀ r' : Reader, r'.ctx = .insideTag → r'.depth = s.depth → r'.flags = s.flags → r'.room = s.room → r'.tz = t3 →
        Tail r' d (n + newlines (ascii "<" ++ name)) (w ++ b :: z) := by
      intro r' h1 h2 h3 h4 h5
      unfold Tail
      rw [e4, e5]
      dsimp only
      rw [if_neg hgt]
      exact ⟨h1, by rw [h2, h.depth], by rw [h3]; exact h.flags, by rw [h4]; exact h.room, by rw [h5, r3], by rw [h5, hn]; exact l3⟩
    by_cases hs : b = 0x2F
    · rw [if_pos hs]
      exact ⟨_, rfl, ⟨k2, c2, hl⟩, tail _ rfl rfl rfl rfl rfl, rfl, fun _ => c2⟩
    · rw [if_neg hs]
      exact ⟨_, rfl, ⟨k2, c2, hl⟩, tail _ rfl rfl rfl rfl rfl, rfl, fun h => absurd h hs⟩

/-- The name of an attribute. -/
theorem name_step {r : Reader} {d n : Nat} {name w1 w2 : List Byte} {quote : Byte} {y : List Byte}
    (h : St r .insideTag d n (name ++ (w1 ++ 0x3D :: (w2 ++ quote :: y)))) (hname : Name name) (hw1 : Space w1) (hw2 : Space w2)
    (hq : quote = 0x22 ∨ quote = 0x27) :
    ∃ r', nextToken rich r = .ok (true, r') ∧ Is r'.current (.attrName, name, n) ∧ r'.rootFound = r.rootFound ∧
      St r' .attrName d (n + newlines (name ++ w1 ++ ascii "=" ++ w2)) (quote :: y) := by
  obtain ⟨c, q, hc, hc1, hc2, hc3, hc4, hc5, hc6⟩ := hname.cons
  have hqs : isSpace quote = false := by rcases hq with rfl | rfl <;> decide
  have hq0 : quote ≠ 0 := by rcases hq with rfl | rfl <;> decide
  have hend : ∃ b' z', w1 ++ 0x3D :: (w2 ++ quote :: y) = b' :: z' ∧ nameEnd b' = true := by
    cases w1 with
    | nil => exact ⟨0x3D, _, rfl, by decide⟩
    | cons b' w =>
      refine ⟨b', _, rfl, ?_⟩
      rcases hw1 b' (List.mem_cons_self ..) with rfl | rfl | rfl | rfl <;> decide
  obtain ⟨b', z', hz, hb'⟩ := hend
  obtain ⟨t2, tok, e2, r2, a2, k2, c2, l2⟩ := hname.parse (t := r.tz) (b := b') (y := z') (by rw [h.rest, hz]) hb'
  rw [← hz] at r2
  obtain ⟨t3, e3, r3, a3⟩ := hw1.skip r2 (by decide) (by decide)
  obtain ⟨t4, e4, r4, a4⟩ := advance_first r3 (by decide) (by decide)
  obtain ⟨t5, e5, r5, a5⟩ := hw2.skip r4 hqs hq0
  have l5 := (((a2.trans a3).trans a4).trans a5).line h.line (p := name ++ w1 ++ ascii "=" ++ w2) (by
    rw [h.rest, r5, show ascii "=" = [0x3D] by decide]; simp)
  have hcall : nextToken rich r = readAttrName { r with ctx := .error, current := makeError r.tz } r.tz := by
    unfold nextToken
    rw [h.ctx]
    dsimp only
    rw [if_neg (by rw [h.rest, hc]; exact hc3)]
  rw [hcall]
  unfold readAttrName
  rw [e2]
  simp only [ok_bind, k2, reduceCtorEq, if_false]
  rw [e3]
  simp only [ok_bind]
  rw [if_neg (by rw [r3]; exact (fun h => h rfl)), e4]
  simp only [ok_bind]
  rw [e5]
  simp only [ok_bind]
  have hd : deref t5.rest = quote := by rw [r5]; rfl
  rw [hd, if_neg (by rcases hq with rfl | rfl <;> decide)]
  exact ⟨_, rfl, ⟨rfl, c2, by rw [← h.line]; exact l2⟩, rfl, rfl, h.depth, h.flags, h.room, r5, l5⟩

/-- The value of an attribute. `y` is what follows it. -/
theorem value_step {r : Reader} {d n : Nat} {quote : Byte} {x : List Byte} {t : List Nat} {w z : List Byte} {b : Byte}
    (h : St r .attrName d n (quote :: (x ++ quote :: (w ++ b :: z)))) (hq : quote = 0x22 ∨ quote = 0x27) (hx : Denotes x t) (hqx : quote ∉ x)
    (hm : Modest t) (hw : Space w) (hb : isSpace b = false) (hb0 : b ≠ 0) (hw' : w ≠ [] ∨ b = 0x3E) :
    ∃ r', nextToken rich r = .ok (true, r') ∧ Is r'.current (.attrValue, encode utf8 t, n) ∧ r'.rootFound = r.rootFound ∧
      Tail r' d (n + newlines ([quote] ++ x ++ [quote])) (w ++ b :: z) := by
  obtain ⟨t1, tok, e1, r1, a1, k1, c1, l1⟩ := parseAttrValue_eq r.tz quote hq _ h.rest
  obtain ⟨e2, e3⟩ := take_append (p := (· != quote)) (a := x) (b := quote) (s := w ++ b :: z)
    (fun y hy => by
      rw [bne_iff_ne]
      rintro rfl
      exact hqx hy) (by simp)
  rw [e3, List.tail_cons] at r1
  rw [e2] at c1
  rw [if_pos (by simp)] at k1
  have hl := a1.line h.line (p := [quote] ++ x ++ [quote]) (by rw [h.rest, r1]; simp)
  have hcall : nextToken rich r = readAttrValue rich { r with ctx := .error, current := makeError r.tz } r.tz := by
    unfold nextToken
    rw [h.ctx]
  rw [hcall]
  unfold readAttrValue
  rw [e1]
  simp only [ok_bind, k1, reduceCtorEq, if_false]
  obtain ⟨s', hu, ht⟩ := unescapeCurrent_text (r := { r with ctx := .error, current := tok }) (x := x) (t := t) h.flags (by rw [c1])
    (by rw [k1]; decide) hx hm h.room
  obtain ⟨hs, hsk⟩ := unescapeCurrent_same hu
  rw [hu]
  simp only [ok_bind]
  have hhead : ([0x20, 0x09, 0x0D, 0x0A, 0x3E, 0] : List Byte).contains (deref t1.rest) = true := by
    rw [r1]
    cases w with
    | nil => rw [hw'.resolve_left (fun h => h rfl)]; exact (by decide : ([0x20, 0x09, 0x0D, 0x0A, 0x3E, 0] : List Byte).contains 0x3E = true)
    | cons b' w =>
      show ([0x20, 0x09, 0x0D, 0x0A, 0x3E, 0] : List Byte).contains b' = true
      rcases hw b' (List.mem_cons_self ..) with rfl | rfl | rfl | rfl <;> decide
  rw [hhead]
  simp only [Bool.not_true, Bool.false_eq_true, if_false]
  obtain ⟨t2, e4, r2, a2⟩ := hw.skip r1 hb hb0
  rw [e4]
  simp only [ok_bind]
  have hd : deref t2.rest = b := by rw [r2]; rfl
  rw [hd]
  have l2 := a2.line hl (p := w) (by rw [r1, r2])
  obtain ⟨e5, e6⟩ := take_append (p := isSpace) (a := w) (b := b) (s := z) hw.bytes hb
  have hkind : s'.current.kind = .attrValue := by rw [hsk, if_pos rfl]; exact k1
  have hline : s'.current.loc.line = BitVec.ofNat 32 n := by rw [hs.loc]; show tok.loc.line = _; rw [l1, h.line]
  have hflags : s'.flags.Verbatim := by rw [hs.flags]; exact h.flags
  have hroom : 64 ≤ s'.room := Nat.le_trans h.room hs.room
  have hdep : s'.depth = d := by rw [hs.depth]; exact h.depth
  by_cases hgt : b = 0x3E
  · subst hgt
    rw [if_pos rfl]
    obtain ⟨t4, e7, r4, a4⟩ := advance_first r2 (by decide) (by decide)
    have l4 := a4.line l2 (p := [0x3E]) (by rw [r2, r4]; rfl)
    rw [e7]
    refine ⟨_, rfl, ⟨hkind, ht, hline⟩, hs.root, ?_⟩
    unfold Tail
    rw [e5, e6]
    dsimp only
    rw [if_pos rfl]
    refine ⟨rfl, by show s'.depth + 1 = _; rw [hdep], hflags, hroom, r4, ?_⟩
    rw [newlines_append w, ← Nat.add_assoc]; exact l4
  · rw [if_neg hgt]
    have tail : ∀ r' : Reader, r'.ctx = .insideTag → r'.depth = s'.depth → r'.flags = s'.flags → r'.room = s'.room → r'.tz = t2 →
        Tail r' d (n + newlines ([quote] ++ x ++ [quote])) (w ++ b :: z) := by
      intro r' h1 h2 h3 h4 h5
      unfold Tail
      rw [e5, e6]
      dsimp only
      rw [if_neg hgt]
      exact ⟨h1, by rw [h2, hdep], by rw [h3]; exact hflags, by rw [h4]; exact hroom, by rw [h5, r2], by rw [h5]; exact l2⟩
    by_cases hsl : b = 0x2F
    · rw [if_pos hsl]
      exact ⟨_, rfl, ⟨hkind, ht, hline⟩, hs.root, tail _ rfl rfl rfl rfl rfl⟩
    · rw [if_neg hsl]
      exact ⟨_, rfl, ⟨hkind, ht, hline⟩, hs.root, tail _ rfl rfl rfl rfl rfl⟩

/-- A closing tag. -/
theorem close_step {r : Reader} {d n : Nat} {name w y : List Byte} (h : St r .content (d + 1) n (0x3C :: 0x2F :: (name ++ (w ++ 0x3E :: y))))
    (hname : Name name) (hw : Space w) :
    ∃ r', nextToken rich r = .ok (true, r') ∧ Is r'.current (.tagClose, name, n) ∧ r'.rootFound = r.rootFound ∧
      St r' (if d = 0 then .postRoot else .content) d (n + newlines (ascii "</" ++ name ++ w ++ ascii ">")) y := by
  obtain ⟨s, t, he⟩ := entry_content h
  obtain ⟨t1, e1, r1, a1⟩ := advance_first he.rest (by decide) (by decide)
  obtain ⟨t2, e2, r2, a2⟩ := advance_first r1 (by decide) (by decide)
  have hend : ∃ b' z', w ++ 0x3E :: y = b' :: z' ∧ nameEnd b' = true := by
    cases w with
    | nil => exact ⟨0x3E, _, rfl, by decide⟩
    | cons b' w =>
      refine ⟨b', _, rfl, ?_⟩
      rcases hw b' (List.mem_cons_self ..) with rfl | rfl | rfl | rfl <;> decide
  obtain ⟨b', z', hz, hb'⟩ := hend
  obtain ⟨t3, tok, e3, r3, a3, k3, c3, l3⟩ := hname.parse (t := t2) (b := b') (y := z') (by rw [r2, hz]) hb'
  rw [← hz] at r3
  obtain ⟨t4, e4, r4, a4⟩ := hw.skip r3 (by decide) (by decide)
  obtain ⟨t5, e5, r5, a5⟩ := advance_first r4 (by decide) (by decide)
  have l2 := (a1.trans a2).line he.line (p := [0x3C, 0x2F]) (by rw [he.rest, r2]; rfl)
  have l5 := ((((a1.trans a2).trans a3).trans a4).trans a5).line he.line (p := ascii "</" ++ name ++ w ++ ascii ">") (by
    rw [he.rest, r5, show ascii "</" = [0x3C, 0x2F] by decide, show ascii ">" = [0x3E] by decide]; simp)
  have hl : tok.loc.line = BitVec.ofNat 32 n := by rw [l3, l2]; rfl
  rw [he.call]
  unfold readMarkup
  rw [e1]
  simp only [ok_bind]
  have hd : deref t1.rest = 0x2F := by rw [r1]; rfl
  rw [hd, if_neg (by decide), if_neg (by decide), if_neg (by decide), if_pos rfl, e2]
  simp only [ok_bind]
  unfold readClose
  rw [e3]
  simp only [ok_bind]
  rw [e4]
  simp only [ok_bind]
  rw [if_neg (by rw [r4]; exact (fun h => h rfl)), e5]
  simp only [ok_bind]
  rw [he.depth, if_neg (by omega)]
  by_cases h0 : d = 0
  · subst h0
    rw [if_pos rfl]
    refine ⟨_, rfl, ⟨rfl, c3, hl⟩, he.root, ?_⟩
    rw [if_pos rfl]
    exact ⟨rfl, rfl, he.flags, he.room, r5, l5⟩
  · rw [if_neg (by omega)]
    refine ⟨_, rfl, ⟨rfl, c3, hl⟩, he.root, ?_⟩
    rw [if_neg h0]
    exact ⟨rfl, rfl, he.flags, he.room, r5, l5⟩

/-- The end of a tag without contents. -/
theorem empty_step {r : Reader} {d n : Nat} {y : List Byte} (h : St r .insideTag d n (0x2F :: 0x3E :: y)) :
    ∃ r', nextToken rich r = .ok (true, r') ∧ Is r'.current (.tagClose, r.currentTag.text, n) ∧ r'.rootFound = r.rootFound ∧
      St r' (if d = 0 then .postRoot else .content) d (n + newlines (ascii "/>")) y := by
  obtain ⟨t1, e1, r1, a1⟩ := advance_first h.rest (by decide) (by decide)
  obtain ⟨t2, e2, r2, a2⟩ := advance_first r1 (by decide) (by decide)
  have l2 := (a1.trans a2).line h.line (p := ascii "/>") (by rw [h.rest, r2, show ascii "/>" = [0x2F, 0x3E] by decide]; rfl)
  unfold nextToken
  rw [h.ctx]
  dsimp only
  rw [if_pos (by rw [h.rest]; rfl)]
  unfold readEmptyEnd
  rw [e1]
  simp only [ok_bind]
  rw [if_neg (by rw [r1]; exact (fun h => h rfl)), e2]
  simp only [ok_bind]
  refine ⟨_, rfl, ⟨rfl, rfl, h.line⟩, rfl, ?_⟩
  rw [h.depth]
  exact ⟨rfl, rfl, h.flags, h.room, r2, l2⟩

theorem strstr_at {pat s y : List Byte} {t : Tz} (kind : Kind) (hp : pat ≠ []) (h : ∀ p q, s ++ pat.dropLast ≠ p ++ pat ++ q)
    (ht : t.rest = s ++ (pat ++ y)) :
    ∃ t' tok, parseUntil t kind pat = (tok, t') ∧ t'.rest = y ∧ Adv t t' ∧ tok.kind = kind ∧
      tok.contents.text = s ∧ tok.loc.line = t.loc.line := by
  obtain ⟨t', tok, h1, h2, h3, h4, h5, h6⟩ := parseUntil_some (t := t) (kind := kind) (pat := pat) (p := s) (s := y)
    (by rw [ht]; exact strstr_first hp h) ht
  exact ⟨t', tok, h1, h2, h3, h4, by rw [h5], h6⟩

/-- The text of a comment. -/
theorem comment_parse {t : Tz} {s y : List Byte} (h : ∀ p q, s ++ ascii "-" ≠ p ++ ascii "--" ++ q)
    (ht : t.rest = s ++ (ascii "-->" ++ y)) :
    ∃ t' tok, parseComment t = .ok (tok, t') ∧ t'.rest = y ∧ Adv t t' ∧ tok.kind = .comment ∧ tok.contents.text = s ∧
      tok.loc.line = t.loc.line := by
  have e1 : ascii "-" = [0x2D] := by decide
  have e2 : ascii "--" = [0x2D, 0x2D] := by decide
  have e3 : ascii "-->" = [0x2D, 0x2D] ++ [0x3E] := by decide
  rw [e1, e2] at h
  obtain ⟨t1, tok, h1, h2, h3, h4, h5, h6⟩ := strstr_at (pat := [0x2D, 0x2D]) (y := 0x3E :: y) .comment (by decide) h (by rw [ht, e3]; simp)
  obtain ⟨t2, h7, h8, h9⟩ := advance_first h2 (by decide) (by decide)
  refine ⟨t2, tok, ?_, h8, h3.trans h9, h4, h5, h6⟩
  unfold parseComment
  rw [h1]
  dsimp only
  rw [if_neg (by rw [h2]; exact (by decide : ¬ ((0x3E : Byte) != 0x3E) = true)), h7]

/-- Processing instructions. -/
theorem instructions_parse {t : Tz} {ts : List Nat} {y : List Byte} (hx : XmlText ts) (hne : ts ≠ [])
    (h : ∀ p q, encode utf8 ts ++ ascii "?" ≠ p ++ ascii "?>" ++ q) (hv : ∀ p q, encode utf8 ts ≠ p ++ ascii "]]>" ++ q)
    (hr : xmlPrefix (encode utf8 ts) = false)
    (ht : t.rest = encode utf8 ts ++ (ascii "?>" ++ y)) (ctx : Ctx) (s : Reader) :
    ∃ t' tok, readInstructions ctx s t = .ok (true, { s with current := tok, ctx := ctx, tz := t' }) ∧ t'.rest = y ∧ Adv t t' ∧
      tok.kind = .instructions ∧ tok.contents.text = encode utf8 ts ∧ tok.loc.line = t.loc.line := by
  have e1 : ascii "?" = [0x3F] := by decide
  have e2 : ascii "?>" = [0x3F, 0x3E] := by decide
  rw [e1, e2] at h
  rw [e2] at ht
  obtain ⟨t1, tok, h1, h2, h3, h4, h5, h6⟩ := strstr_at (pat := [0x3F, 0x3E]) .instructions (by decide) h ht
  refine ⟨t1, tok, ?_, h2, h3, h4, h5, h6⟩
  have hne' : encode utf8 ts ≠ [] := by
    intro e
    have := encode_length ts
    rw [e] at this
    exact hne (List.length_eq_zero_iff.mp (by simpa using this))
  have hp : parseInstructions t = (tok, t1) := by
    unfold parseInstructions
    rw [h1]
    dsimp only
    rw [if_neg (by rw [h4]; decide), if_neg (by rw [h5]; simpa using hne'), if_neg]
    rw [h5, hr]
    decide
  unfold readInstructions
  rw [hp]
  dsimp only
  rw [if_neg (by rw [h4]; decide)]
  have hv' : validString tok.contents = .ok true := by
    have := hx.valid hv tok.contents.after
    rw [← h5] at this
    exact this
  rw [hv']

theorem target_ne {target : List Nat} (h : Name (encode utf8 target)) (t : List Nat) : target ++ t ≠ [] := by
  intro e
  have h1 := (List.append_eq_nil_iff.mp e).1
  subst h1
  exact h.ne_nil rfl

theorem target_prefix {target t : List Nat} (h : Name (encode utf8 target)) (hx : XmlText (target ++ t)) (ht : t = [] ∨ ∃ c q, t = c :: q ∧ Blank c)
    (hb : ¬ BeginsXml target) : xmlPrefix (encode utf8 (target ++ t)) = false := by
  have one : ∀ (b : Byte) (s : List Byte) (ts : List Nat), XmlText ts → encode utf8 ts = b :: s → b.toNat < 0x80 →
      ∃ ts', ts = b.toNat :: ts' ∧ encode utf8 ts' = s := by
    intro b s ts hx he hb
    cases ts with
    | nil => cases he
    | cons c ts =>
      have hc := hx c (List.mem_cons_self ..)
      have hle : c ≤ 0x10FFFF := by unfold XmlChar at hc; omega
      obtain ⟨b', q, hq⟩ := List.exists_cons_of_ne_nil (utf8_ne_nil c)
      have he' : utf8 c ++ encode utf8 ts = b :: s := he
      rw [hq] at he'
      have hb' : b' = b := (List.cons.inj he').1
      subst hb'
      rcases utf8_bytes hle (b := b') (by rw [hq]; exact List.mem_cons_self ..) with ⟨h1, h2⟩ | h1
      · have h3 : b'.toNat = c := by rw [← h2]
        refine ⟨ts, by rw [h3], ?_⟩
        have h4 : utf8 c = [b'] := by rw [utf8_ascii h1, ← h3, BitVec.ofNat_toNat, BitVec.setWidth_eq]
        rw [h4] at hq
        rw [← hq] at he'
        exact (List.cons.inj he').2
      · omega
  unfold xmlPrefix
  split
  · rename_i x m l q he
    rw [Bool.eq_false_iff]
    intro hm
    simp only [Bool.and_eq_true, Bool.or_eq_true, decide_eq_true_eq, and_assoc] at hm
    obtain ⟨h1, h2, h3⟩ := hm
    have k1 : x.toNat = 0x78 ∨ x.toNat = 0x58 := h1.imp (fun h => by rw [h]; rfl) (fun h => by rw [h]; rfl)
    have k2 : m.toNat = 0x6D ∨ m.toNat = 0x4D := h2.imp (fun h => by rw [h]; rfl) (fun h => by rw [h]; rfl)
    have k3 : l.toNat = 0x6C ∨ l.toNat = 0x4C := h3.imp (fun h => by rw [h]; rfl) (fun h => by rw [h]; rfl)
    obtain ⟨t1, e1, f1⟩ := one x _ _ hx he (by omega)
    rw [e1] at hx
    have hx1 : XmlText t1 := fun c hc => hx c (List.mem_cons_of_mem _ hc)
    obtain ⟨t2, e2, f2⟩ := one m _ _ hx1 f1 (by omega)
    rw [e2] at hx1
    have hx2 : XmlText t2 := fun c hc => hx1 c (List.mem_cons_of_mem _ hc)
    obtain ⟨t3, e3, f3⟩ := one l _ _ hx2 f2 (by omega)
    rw [e2, e3] at e1
    have blank : ∀ c, Blank c → c = 0x20 ∨ c = 0x09 ∨ c = 0x0A ∨ c = 0x0D := fun _ h => h
    cases target with
    | nil => exact h.ne_nil rfl
    | cons a1 target =>
      cases target with
      | nil =>
        rcases ht with rfl | ⟨c, q', rfl, hc⟩
        · simp at e1
        · simp only [List.cons_append, List.nil_append, List.cons.injEq] at e1
          have := blank c hc
          omega
      | cons a2 target =>
        cases target with
        | nil =>
          rcases ht with rfl | ⟨c, q', rfl, hc⟩
          · simp at e1
          · simp only [List.cons_append, List.nil_append, List.cons.injEq] at e1
            have := blank c hc
            omega
        | cons a3 target =>
          simp only [List.cons_append, List.cons.injEq] at e1
          exact hb ⟨a1, a2, a3, target, rfl, by omega, by omega, by omega⟩
  · rfl

/-- A comment or processing instructions, in front of or inside of the root. -/
theorem misc_step {r s : Reader} {t : Tz} {d n : Nat} {m y : List Byte} {k : Tok} (h : Entry r s t d n (m ++ y)) (hm : MiscItem False n m k) :
    ∃ r', nextToken rich r = .ok (true, r') ∧ Is r'.current k ∧ r'.rootFound = r.rootFound ∧ St r' .content d (n + newlines m) y := by
  cases hm with
  | comment ts hx hn hall =>
    obtain ⟨hmod, ha⟩ := hall.resolve_left id
    have e0 : ascii "<!--" = [0x3C, 0x21, 0x2D, 0x2D] := by decide
    have hrest : t.rest = 0x3C :: 0x21 :: ([0x2D, 0x2D] ++ (encode utf8 ts ++ (ascii "-->" ++ y))) := by
      rw [h.rest, e0]; simp
    obtain ⟨t1, e1, r1, a1⟩ := advance_first hrest (by decide) (by decide)
    obtain ⟨t2, e2, r2, a2⟩ := advance_first r1 (by decide) (by decide)
    obtain ⟨t3, e3, r3, a3⟩ := advance_eq r2 (by decide)
    obtain ⟨t4, tok, e4, r4, a4, k4, c4, l4⟩ := comment_parse hn r3
    have l3 := ((a1.trans a2).trans a3).line h.line (p := ascii "<!--") (by rw [h.rest, r3]; simp)
    have l5 := (((a1.trans a2).trans a3).trans a4).line h.line (p := ascii "<!--" ++ encode utf8 ts ++ ascii "-->") (by rw [h.rest, r4])
    rw [h.call]
    unfold readMarkup
    rw [e1]
    simp only [ok_bind]
    have hd : deref t1.rest = 0x21 := by rw [r1]; rfl
    rw [hd, if_neg (by decide), if_pos rfl, e2]
    simp only [ok_bind]
    unfold readBang
    rw [if_pos (by rw [r2, prefix_iff]; exact List.prefix_append _ _), show (2 : Nat) = ([0x2D, 0x2D] : List Byte).length from rfl, e3]
    simp only [ok_bind]
    rw [e4]
    simp only [ok_bind, k4, reduceCtorEq, if_false]
    obtain ⟨s', hu, ht⟩ := unescapeCurrent_comment (r := { s with current := tok }) h.flags c4 k4 hx ha hmod h.room
    obtain ⟨hs, hsk⟩ := unescapeCurrent_same hu
    rw [hu]
    refine ⟨_, rfl, ⟨by rw [← k4]; exact hsk, ht, ?_⟩, ?_, rfl, ?_, ?_, ?_, r4, l5⟩
    · show s'.current.loc.line = _
      rw [hs.loc]; show tok.loc.line = _; rw [l4, l3]; rfl
    · show s'.rootFound = _; rw [hs.root]; exact h.root
    · show s'.depth = _; rw [hs.depth]; exact h.depth
    · show s'.flags.Verbatim; rw [hs.flags]; exact h.flags
    · exact Nat.le_trans h.room hs.room
  | instructions target t' hname hnx hx ht' hn hall =>
    obtain ⟨hb, hv⟩ := hall.resolve_left id
    have hne := target_ne hname t'
    have hr := target_prefix hname hx ht' hb
    generalize target ++ t' = ts at *
    have e0 : ascii "<?" = [0x3C, 0x3F] := by decide
    have hrest : t.rest = 0x3C :: 0x3F :: (encode utf8 ts ++ (ascii "?>" ++ y)) := by
      rw [h.rest, e0]; simp
    obtain ⟨t1, e1, r1, a1⟩ := advance_first hrest (by decide) (by decide)
    obtain ⟨t2, e2, r2, a2⟩ := advance_first r1 (by decide) (by decide)
    obtain ⟨t3, tok, e3, r3, a3, k3, c3, l3⟩ := instructions_parse hx hne hn hv hr r2 .content s
    have l2 := (a1.trans a2).line h.line (p := ascii "<?") (by rw [h.rest, r2]; simp)
    have l4 := ((a1.trans a2).trans a3).line h.line (p := ascii "<?" ++ encode utf8 ts ++ ascii "?>") (by rw [h.rest, r3])
    rw [h.call]
    unfold readMarkup
    rw [e1]
    simp only [ok_bind]
    have hd : deref t1.rest = 0x3F := by rw [r1]; rfl
    rw [hd, if_neg (by decide), if_neg (by decide), if_pos rfl, e2]
    simp only [ok_bind]
    rw [e3]
    exact ⟨_, rfl, ⟨k3, c3, by show tok.loc.line = _; rw [l3, l2]; rfl⟩, h.root, rfl, h.depth, h.flags, h.room, r3, l4⟩

/-- A CDATA section. -/
theorem cdata_step {r : Reader} {d n : Nat} {ts : List Nat} {y : List Byte}
    (h : St r .content (d + 1) n (ascii "<![CDATA[" ++ encode utf8 ts ++ ascii "]]>" ++ y)) (hx : XmlText ts)
    (hn : ∀ p q, encode utf8 ts ++ ascii "]]" ≠ p ++ ascii "]]>" ++ q) :
    ∃ r', nextToken rich r = .ok (true, r') ∧ Is r'.current (.cdata, encode utf8 ts, n) ∧ r'.rootFound = r.rootFound ∧
      St r' .content (d + 1) (n + newlines (ascii "<![CDATA[" ++ encode utf8 ts ++ ascii "]]>")) y := by
  have e0 : ascii "<![CDATA[" = 0x3C :: 0x21 :: [0x5B, 0x43, 0x44, 0x41, 0x54, 0x41, 0x5B] := by decide
  have e1 : ascii "]]>" = [0x5D, 0x5D, 0x3E] := by decide
  have e2 : ascii "]]" = [0x5D, 0x5D] := by decide
  have hv : ∀ p q, encode utf8 ts ≠ p ++ ascii "]]>" ++ q := fun p q e => hn p (q ++ ascii "]]") (by rw [e]; simp)
  have hcontent : St r .content (d + 1) n (0x3C :: 0x21 :: ([0x5B, 0x43, 0x44, 0x41, 0x54, 0x41, 0x5B] ++ (encode utf8 ts ++ ([0x5D, 0x5D, 0x3E] ++ y)))) := by
    have : ascii "<![CDATA[" ++ encode utf8 ts ++ ascii "]]>" ++ y =
        0x3C :: 0x21 :: ([0x5B, 0x43, 0x44, 0x41, 0x54, 0x41, 0x5B] ++ (encode utf8 ts ++ ([0x5D, 0x5D, 0x3E] ++ y))) := by
      rw [e0, e1]; simp
    rw [← this]; exact h
  rw [e1, e2] at hn
  obtain ⟨s, t, he⟩ := entry_content hcontent
  obtain ⟨t1, f1, r1, a1⟩ := advance_first he.rest (by decide) (by decide)
  obtain ⟨t2, f2, r2, a2⟩ := advance_first r1 (by decide) (by decide)
  obtain ⟨t3, f3, r3, a3⟩ := advance_eq r2 (by decide)
  obtain ⟨t4, tok, f4, r4, a4, k4, c4, l4⟩ := strstr_at (pat := [0x5D, 0x5D, 0x3E]) .cdata (by decide) hn r3
  have l3 := ((a1.trans a2).trans a3).line he.line (p := ascii "<![CDATA[") (by rw [he.rest, r3, e0]; simp)
  have l5 := (((a1.trans a2).trans a3).trans a4).line he.line (p := ascii "<![CDATA[" ++ encode utf8 ts ++ ascii "]]>") (by
    rw [he.rest, r4, e0, e1]; simp)
  rw [he.call]
  unfold readMarkup
  rw [f1]
  simp only [ok_bind]
  have hd : deref t1.rest = 0x21 := by rw [r1]; rfl
  rw [hd, if_neg (by decide), if_pos rfl, f2]
  simp only [ok_bind]
  unfold readBang
  rw [if_neg (by rw [r2, List.cons_append]; simp [List.isPrefixOf]), if_pos (by rw [r2, prefix_iff]; exact List.prefix_append _ _),
    show (7 : Nat) = ([0x5B, 0x43, 0x44, 0x41, 0x54, 0x41, 0x5B] : List Byte).length from rfl, f3]
  simp only [ok_bind]
  rw [if_pos (by rw [he.depth]; omega)]
  unfold parseCdata
  rw [f4]
  simp only [k4, reduceCtorEq, if_false]
  have hp : processCdata rich { s with current := tok } = .ok (true, { s with current := tok }) := by
    unfold processCdata
    dsimp only
    have hf' : (if (!s.flags.cdata) = true then s.flags.noTrim else s.flags).Verbatim := by
      split
      · exact ⟨rfl, rfl, rfl, rfl⟩
      · exact he.flags
    rw [trim_verbatim hf', hf'.2.2.1]
    have hv' : validString tok.contents = .ok true := by
      have := hx.valid hv tok.contents.after
      rw [← c4] at this
      exact this
    split
    · rfl
    · simp only [Bool.false_eq_true, if_false]
      rw [hv']
  rw [hp]
  exact ⟨_, rfl, ⟨k4, c4, by show tok.loc.line = _; rw [l4, l3]; rfl⟩, he.root, rfl, he.depth, he.flags, he.room, r4, l5⟩

/-- Character data has no "<". -/
theorem Denotes.no_markup {x : List Byte} {t : List Nat} (h : Denotes x t) : (0x3C : Byte) ∉ x ∧ (0 : Byte) ∉ x := by
  have dig : ∀ {p : Byte → Nat → Prop} {base : Nat} {ds : List Byte} {c : Nat}, (∀ b n, p b n → b ≠ 0x3C ∧ b ≠ 0) → Numeral p base ds c →
      ∀ b ∈ ds, b ≠ 0x3C ∧ b ≠ 0 := by
    intro p base ds c hp hn
    induction hn with
    | one d n hd => intro b hb; rw [List.mem_singleton.mp hb]; exact hp _ _ hd
    | more ds d m n _ hd ih =>
      intro b hb
      rcases List.mem_append.mp hb with hb | hb
      · exact ih b hb
      · rw [List.mem_singleton.mp hb]; exact hp _ _ hd
  have dec : ∀ b n, DecDigit b n → b ≠ 0x3C ∧ b ≠ 0 := by
    rintro b n ⟨_, h⟩
    have : ∀ n : Fin 10, BitVec.ofNat 8 (0x30 + n.1) ≠ 0x3C ∧ BitVec.ofNat 8 (0x30 + n.1) ≠ 0 := by decide
    exact this ⟨n, h⟩
  have hex : ∀ b n, HexDigit b n → b ≠ 0x3C ∧ b ≠ 0 := by
    rintro b n (⟨_, h⟩ | ⟨m, h⟩ | ⟨m, h⟩)
    · have : ∀ n : Fin 10, BitVec.ofNat 8 (0x30 + n.1) ≠ 0x3C ∧ BitVec.ofNat 8 (0x30 + n.1) ≠ 0 := by decide
      exact this ⟨n, h⟩
    · have : ∀ n : Fin 6, BitVec.ofNat 8 (0x61 + n.1) ≠ 0x3C ∧ BitVec.ofNat 8 (0x61 + n.1) ≠ 0 := by decide
      exact this ⟨m, h⟩
    · have : ∀ n : Fin 6, BitVec.ofNat 8 (0x41 + n.1) ≠ 0x3C ∧ BitVec.ofNat 8 (0x41 + n.1) ≠ 0 := by decide
      exact this ⟨m, h⟩
  have lit : ∀ l : List Byte, (∀ b ∈ l, b ≠ 0x3C ∧ b ≠ 0) → ∀ b ∈ l, b ≠ 0x3C ∧ b ≠ 0 := fun _ h => h
  have key : ∀ b ∈ x, b ≠ 0x3C ∧ b ≠ 0 := by
    induction h with
    | nil => intro b hb; cases hb
    | char c s t hc h1 h2 h3 _ ih =>
      intro b hb
      rcases List.mem_append.mp hb with hb | hb
      · have hle : c ≤ 0x10FFFF := by unfold XmlChar at hc; omega
        have h0 : c ≠ 0 := by unfold XmlChar at hc; omega
        constructor <;>
        · rintro rfl
          rcases utf8_bytes hle hb with ⟨_, h⟩ | h
          · first | exact h2 h.symm | exact h0 h.symm
          · revert h; decide
      · exact ih b hb
    | entity e c s t he _ ih =>
      intro b hb
      rcases List.mem_append.mp hb with hb | hb
      · have : ∀ p ∈ entities, ∀ b ∈ ascii "&" ++ p.1, b ≠ 0x3C ∧ b ≠ 0 := by decide
        exact this _ he b hb
      · exact ih b hb
    | dec ds c s t hn _ _ _ ih =>
      intro b hb
      rcases List.mem_append.mp hb with hb | hb
      · rcases List.mem_append.mp hb with hb | hb
        · rcases List.mem_append.mp hb with hb | hb
          · exact lit _ (by decide) b hb
          · exact dig dec hn b hb
        · exact lit _ (by decide) b hb
      · exact ih b hb
    | hex ds c s t hn _ _ _ ih =>
      intro b hb
      rcases List.mem_append.mp hb with hb | hb
      · rcases List.mem_append.mp hb with hb | hb
        · rcases List.mem_append.mp hb with hb | hb
          · exact lit _ (by decide) b hb
          · exact dig hex hn b hb
        · exact lit _ (by decide) b hb
      · exact ih b hb
    | custom s t _ _ _ _ ih =>
      intro b hb
      rcases List.mem_append.mp hb with hb | hb
      · exact lit _ (by decide) b hb
      · exact ih b hb
  exact ⟨fun h => (key _ h).1 rfl, fun h => (key _ h).2 rfl⟩

/-- Character data. -/
theorem text_step {r : Reader} {d n : Nat} {x : List Byte} {ts : List Nat} {y : List Byte}
    (h : St r .content (d + 1) n (x ++ 0x3C :: y)) (hr : r.rootFound = true) (hx : Denotes x ts) (hne : x ≠ []) (hm : Modest ts) :
    ∃ r', nextToken rich r = .ok (true, r') ∧ Is r'.current (.contents, encode utf8 ts, n) ∧ r'.rootFound = r.rootFound ∧
      St r' .content (d + 1) (n + newlines x) (0x3C :: y) := by
  obtain ⟨hlt, h0⟩ := hx.no_markup
  obtain ⟨t1, tok, e1, r1, a1, k1, c1, l1⟩ := parseContents_eq r.tz
  obtain ⟨e2, e3⟩ := take_append (p := (· != 0x3C)) (a := x) (b := 0x3C) (s := y)
    (fun b hb => by rw [bne_iff_ne]; rintro rfl; exact hlt hb) (by decide)
  rw [h.rest] at r1 c1
  rw [e3] at r1
  rw [e2] at c1
  rw [r1, if_neg (by exact (by decide : ¬ (0x3C : Byte) = 0))] at k1
  have hl := a1.line h.line (p := x) (by rw [h.rest, r1])
  obtain ⟨b, x', rfl⟩ := List.exists_cons_of_ne_nil hne
  have hb0 : b ≠ 0 := by rintro rfl; exact h0 (List.mem_cons_self ..)
  have hb1 : b ≠ 0x3C := by rintro rfl; exact hlt (List.mem_cons_self ..)
  obtain ⟨s', hu, ht⟩ := unescapeCurrent_text (r := { r with ctx := .error, current := tok }) (x := b :: x') (t := ts) h.flags (by rw [c1])
    (by rw [k1]; decide) hx hm h.room
  obtain ⟨hs, hsk⟩ := unescapeCurrent_same hu
  unfold nextToken
  rw [h.ctx]
  dsimp only
  unfold readContent
  rw [if_neg (by rw [h.rest]; exact hb0), if_neg (by rw [h.rest]; exact hb1), if_neg (by simp [hr, h.depth]), e1]
  simp only [k1, reduceCtorEq, if_false]
  rw [hu]
  simp only []
  have hf : (s'.flags.left || s'.flags.right) = false := by
    rw [show s'.flags = r.flags from hs.flags, h.flags.1, h.flags.2.1]; rfl
  rw [hf, if_neg (by simp)]
  refine ⟨_, rfl, ⟨by rw [← k1]; exact hsk, ht, ?_⟩, hs.root, rfl, ?_, ?_, ?_, r1, hl⟩
  · show s'.current.loc.line = _
    rw [hs.loc]; show tok.loc.line = _; rw [l1, h.line]
  · show s'.depth = _; rw [hs.depth]; exact h.depth
  · show s'.flags.Verbatim; rw [hs.flags]; exact h.flags
  · exact Nat.le_trans h.room hs.room

end Tm.Xml
