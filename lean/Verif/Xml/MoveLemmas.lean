import Verif.Xml.ScanLemmas

/-!
What one call of `nextToken` does to the reader, whatever the document is.
-/

namespace Tm.Xml

/-- What the processing of the current token leaves as it is. -/
structure Same (r r' : Reader) : Prop where
  tz : r'.tz = r.tz
  flags : r'.flags = r.flags
  ctx : r'.ctx = r.ctx
  depth : r'.depth = r.depth
  tag : r'.currentTag = r.currentTag
  root : r'.rootFound = r.rootFound
  room : r.room ≤ r'.room
  loc : r'.current.loc = r.current.loc

theorem processCurrent_same {alloc : Nat → Bool} {process : Nat → C Result} {r : Reader} {b : Bool} {r' : Reader}
    (h : processCurrent alloc process r = .ok (b, r')) :
    Same r r' ∧ r'.current.kind = (if b then r.current.kind else .error) := by
  unfold processCurrent at h
  split at h
  · cases h
  · split at h
    · cases h; exact ⟨⟨rfl, rfl, rfl, rfl, rfl, rfl, Nat.le_refl _, rfl⟩, rfl⟩
    · split at h
      · cases h; exact ⟨⟨rfl, rfl, rfl, rfl, rfl, rfl, Nat.le_refl _, rfl⟩, rfl⟩
      · split at h
        · cases h
        · cases h; exact ⟨⟨rfl, rfl, rfl, rfl, rfl, rfl, Nat.le_refl _, rfl⟩, rfl⟩
        · rename_i hg
          unfold growBuffer at hg
          split at hg
          · rename_i hlt
            split at hg
            · cases hg
              split at h
              · cases h
              · split at h
                · cases h; exact ⟨⟨rfl, rfl, rfl, rfl, rfl, rfl, by dsimp only; omega, rfl⟩, rfl⟩
                · split at h
                  · cases h; exact ⟨⟨rfl, rfl, rfl, rfl, rfl, rfl, by dsimp only; omega, rfl⟩, rfl⟩
                  · cases h
            · cases hg
          · cases hg

theorem unescapeCurrent_same {alloc : Nat → Bool} {r : Reader} {b : Bool} {r' : Reader}
    (h : unescapeCurrent alloc r = .ok (b, r')) : Same r r' ∧ r'.current.kind = (if b then r.current.kind else .error) := by
  unfold unescapeCurrent at h
  dsimp only at h
  generalize (if (decide (r.current.kind = .attrValue) && !r.flags.attr) = true then r.flags.noTrim else r.flags) = fl at h
  split at h
  · cases h; exact ⟨⟨rfl, rfl, rfl, rfl, rfl, rfl, Nat.le_refl _, rfl⟩, rfl⟩
  · obtain ⟨h1, h2⟩ := processCurrent_same h
    exact ⟨⟨h1.tz, h1.flags, h1.ctx, h1.depth, h1.tag, h1.root, h1.room, h1.loc⟩, h2⟩

theorem processCdata_same {alloc : Nat → Bool} {r : Reader} {b : Bool} {r' : Reader}
    (h : processCdata alloc r = .ok (b, r')) : Same r r' ∧ (b = true → r'.current.kind = r.current.kind) := by
  unfold processCdata at h
  dsimp only at h
  generalize (if (!r.flags.cdata) = true then r.flags.noTrim else r.flags) = fl at h
  split at h
  · cases h; exact ⟨⟨rfl, rfl, rfl, rfl, rfl, rfl, Nat.le_refl _, rfl⟩, fun _ => rfl⟩
  · split at h
    · obtain ⟨h1, h2⟩ := processCurrent_same h
      exact ⟨⟨h1.tz, h1.flags, h1.ctx, h1.depth, h1.tag, h1.root, h1.room, h1.loc⟩, fun hb => by rw [h2, hb]; rfl⟩
    · split at h
      · cases h
      · cases h; exact ⟨⟨rfl, rfl, rfl, rfl, rfl, rfl, Nat.le_refl _, rfl⟩, fun _ => rfl⟩

/-- What is common to all calls. -/
structure Frame (r r' : Reader) : Prop where
  adv : Adv r.tz r'.tz
  flags : r'.flags = r.flags
  room : r.room ≤ r'.room
  /-- the line of the token is counted from the beginning of the document -/
  loc : ∃ t, Adv r.tz t ∧ r'.current.loc.line = t.loc.line

/-- In front of a closing tag, up to whitespace. -/
def Closing (s : List Byte) : Prop := ascii "</" <+: s.dropWhile isSpace

/-- The calls of `nextToken` that return true, by what happens. -/
inductive Move (r r' : Reader) : Prop
  /-- the document is not well-formed, or there is no memory -/
  | fail (f : Frame r r') (c : r'.ctx = .error)
  /-- the end of the document -/
  | eof (f : Frame r r') (c : r'.ctx = .eof) (k : r'.current.kind = .eof)
      (h : r.ctx = .postRoot ∨ (r.ctx = .content ∨ r.ctx = .none) ∧ r.rootFound = true ∧ r.depth = 0)
      (d : r'.depth = r.depth) (o : r'.rootFound = r.rootFound)
  /-- a closing tag where none is open: the reader stays at it -/
  | stuck (f : Frame r r') (c : r'.ctx = .content) (k : r'.current.kind = .tagClose) (h : r.ctx = .content ∨ r.ctx = .none)
      (d : r.depth = 0) (d' : r'.depth = 0) (o : r'.rootFound = r.rootFound) (s : Closing r'.tz.rest)
  /-- a comment or processing instructions -/
  | misc (f : Frame r r') (c : r'.ctx = .content) (k : r'.current.kind = .comment ∨ r'.current.kind = .instructions)
      (h : r.ctx = .content ∨ r.ctx = .none) (d : r'.depth = r.depth) (o : r'.rootFound = r.rootFound)
      (s : r.depth = 0 → ¬ Closing r.tz.rest) (l : r'.tz.rest.length < r.tz.rest.length)
  /-- text in an element -/
  | text (f : Frame r r') (c : r'.ctx = .content) (k : r'.current.kind = .contents ∨ r'.current.kind = .cdata)
      (h : r.ctx = .content ∨ r.ctx = .none) (p : 0 < r.depth) (d : r'.depth = r.depth) (o : r'.rootFound = r.rootFound)
      (l : r'.tz.rest.length < r.tz.rest.length)
  /-- an opening tag without attributes -/
  | opened (f : Frame r r') (c : r'.ctx = .content) (k : r'.current.kind = .tagOpen)
      (h : r.ctx = .content ∨ r.ctx = .none) (d : r'.depth = r.depth + 1) (o : r'.rootFound = true)
      (s : r.depth = 0 → ¬ Closing r.tz.rest) (l : r'.tz.rest.length < r.tz.rest.length)
  /-- the name of an opening tag, before attributes or "/" -/
  | tag (f : Frame r r') (c : r'.ctx = .insideTag) (k : r'.current.kind = .tagOpen)
      (h : r.ctx = .content ∨ r.ctx = .none) (d : r'.depth = r.depth) (o : r'.rootFound = true)
      (s : r.depth = 0 → ¬ Closing r.tz.rest) (l : r'.tz.rest.length < r.tz.rest.length)
  /-- a closing tag -/
  | closed (f : Frame r r') (c : r'.ctx = if r'.depth = 0 then .postRoot else .content) (k : r'.current.kind = .tagClose)
      (h : r.ctx = .content ∨ r.ctx = .none) (d : r'.depth + 1 = r.depth) (o : r'.rootFound = r.rootFound)
      (l : r'.tz.rest.length < r.tz.rest.length)
  /-- "/>" -/
  | empty (f : Frame r r') (c : r'.ctx = if r.depth = 0 then .postRoot else .content) (k : r'.current.kind = .tagClose)
      (h : r.ctx = .insideTag) (d : r'.depth = r.depth) (o : r'.rootFound = r.rootFound)
      (l : r'.tz.rest.length < r.tz.rest.length)
  /-- the name of an attribute -/
  | name (f : Frame r r') (c : r'.ctx = .attrName) (k : r'.current.kind = .attrName)
      (h : r.ctx = .insideTag) (d : r'.depth = r.depth) (o : r'.rootFound = r.rootFound)
      (l : r'.tz.rest.length < r.tz.rest.length)
  /-- the value of the last attribute -/
  | last (f : Frame r r') (c : r'.ctx = .content) (k : r'.current.kind = .attrValue)
      (h : r.ctx = .attrName) (d : r'.depth = r.depth + 1) (o : r'.rootFound = r.rootFound)
      (l : r'.tz.rest.length < r.tz.rest.length)
  /-- the value of another attribute -/
  | value (f : Frame r r') (c : r'.ctx = .insideTag) (k : r'.current.kind = .attrValue)
      (h : r.ctx = .attrName) (d : r'.depth = r.depth) (o : r'.rootFound = r.rootFound)
      (l : r'.tz.rest.length < r.tz.rest.length)
  /-- a comment or processing instructions behind the root -/
  | post (f : Frame r r') (c : r'.ctx = .postRoot) (k : r'.current.kind = .comment ∨ r'.current.kind = .instructions)
      (h : r.ctx = .postRoot) (d : r'.depth = r.depth) (o : r'.rootFound = r.rootFound)
      (l : r'.tz.rest.length < r.tz.rest.length)
  /-- a comment behind the root that cannot be unescaped: the reader stays at it -/
  | again (f : Frame r r') (c : r'.ctx = .postRoot) (k : r'.current.kind = .error)
      (h : r.ctx = .postRoot) (d : r'.depth = r.depth) (o : r'.rootFound = r.rootFound)

/-- The state of `nextToken` in front of something to read: `r` is the reader of the call, `t` the position, `s` the reader with
what was stored so far. -/
structure At (r s : Reader) (t : Tz) : Prop where
  ctx : s.ctx = .error
  stored : Adv r.tz s.tz
  adv : Adv s.tz t
  flags : s.flags = r.flags
  room : r.room ≤ s.room
  depth : s.depth = r.depth
  root : s.rootFound = r.rootFound
  loc : ∃ u, Adv r.tz u ∧ s.current.loc.line = u.loc.line

theorem At.pos {r s : Reader} {t : Tz} (h : At r s t) : Adv r.tz t := h.stored.trans h.adv

/-- The frame of a call that stores nothing. -/
theorem At.frame {r s : Reader} {t : Tz} (h : At r s t) : Frame r s := ⟨h.stored, h.flags, h.room, h.loc⟩

theorem At.next {r s : Reader} {t t' : Tz} (h : At r s t) (ha : Adv t t') : At r s t' :=
  ⟨h.ctx, h.stored, h.adv.trans ha, h.flags, h.room, h.depth, h.root, h.loc⟩

theorem At.token {r s : Reader} {t : Tz} (h : At r s t) (tok : Token) (u : Tz) (hu : Adv r.tz u) (hl : tok.loc.line = u.loc.line) :
    At r { s with current := tok } t :=
  ⟨h.ctx, h.stored, h.adv, h.flags, h.room, h.depth, h.root, u, hu, hl⟩

theorem At.same {r s s' : Reader} {t : Tz} (h : At r s t) (hs : Same s s') : At r s' t where
  ctx := hs.ctx.trans h.ctx
  stored := by rw [hs.tz]; exact h.stored
  adv := by rw [hs.tz]; exact h.adv
  flags := hs.flags.trans h.flags
  room := Nat.le_trans h.room hs.room
  depth := hs.depth.trans h.depth
  root := hs.root.trans h.root
  loc := by rw [hs.loc]; exact h.loc

theorem At.stop {r s : Reader} {t : Tz} (h : At r s t) : Move r s := .fail h.frame h.ctx

theorem At.frame_at {r s : Reader} {t : Tz} (h : At r s t) (c : Ctx) (d : Nat) (o : Bool) (g : View) :
    Frame r { s with ctx := c, depth := d, rootFound := o, currentTag := g, tz := t } := ⟨h.pos, h.flags, h.room, h.loc⟩

theorem isPrefix_rest {p s : List Byte} (h : p.isPrefixOf s = true) : ∃ q, s = p ++ q := by
  obtain ⟨q, hq⟩ := List.isPrefixOf_iff_prefix.mp h
  exact ⟨q, hq.symm⟩

theorem dropWhile_twice (p : Byte → Bool) (s : List Byte) : (s.dropWhile p).dropWhile p = s.dropWhile p := by
  induction s with
  | nil => rfl
  | cons b s ih =>
    by_cases h : p b = true
    · rw [List.dropWhile_cons_of_pos h, ih]
    · rw [List.dropWhile_cons_of_neg h, List.dropWhile_cons_of_neg h]

theorem ascii_close : ascii "</" = [0x3C, 0x2F] := by decide

theorem not_close {s : List Byte} {c : Byte} {q : List Byte} (hs : s = 0x3C :: c :: q) (hc : c ≠ 0x2F) : ¬ Closing s := by
  unfold Closing
  rw [hs, List.dropWhile_cons_of_neg (by decide), ascii_close]
  rintro ⟨x, hx⟩
  simp only [List.cons_append, List.nil_append, List.cons.injEq] at hx
  exact hc hx.2.1.symm

/-- Outside of the root, only whitespace was skipped. -/
structure Near (r s : Reader) (t : Tz) : Prop where
  call : r.depth = 0 → t.rest.dropWhile isSpace = r.tz.rest.dropWhile isSpace
  stored : r.depth = 0 → s.tz.rest.dropWhile isSpace = t.rest.dropWhile isSpace

section
variable {alloc : Nat → Bool} {r s : Reader} {t : Tz} {b : Bool} {r' : Reader}

theorem readBang_move (hr : r.ctx = .content ∨ r.ctx = .none) (ha : At r s t) (hl : t.rest.length < r.tz.rest.length)
    (hc : r.depth = 0 → ¬ Closing r.tz.rest) (h : readBang alloc s t = .ok (b, r')) : b = true ∧ Move r r' := by
  unfold readBang at h
  split at h
  · rename_i hp
    obtain ⟨q, hq⟩ := isPrefix_rest hp
    obtain ⟨t1, h1, h2, h3⟩ := advance_eq hq (by decide)
    rw [show ([0x2D, 0x2D] : List Byte).length = 2 from rfl] at h1
    rw [h1] at h
    simp only [ok_bind] at h
    rcases parseComment_cases t1 with ⟨t2, tok, e, k, a, _, l⟩ | ⟨t2, tok, p, e, _, _, a, k, _, l⟩
    · rw [e] at h
      simp only [ok_bind, k, if_true] at h
      cases h
      exact ⟨rfl, (ha.token tok t1 (ha.pos.trans h3) l).stop⟩
    · rw [e] at h
      simp only [ok_bind, k, reduceCtorEq, if_false] at h
      have hat := (ha.token tok t1 (ha.pos.trans h3) l).next (h3.trans a)
      cases hu : unescapeCurrent alloc { s with current := tok } with
      | error e => rw [hu] at h; cases h
      | ok p =>
        obtain ⟨b', s'⟩ := p
        rw [hu] at h
        obtain ⟨hs, hk⟩ := unescapeCurrent_same hu
        have hat' := hat.same hs
        cases b' with
        | false => cases h; exact ⟨rfl, hat'.stop⟩
        | true =>
          cases h
          refine ⟨rfl, .misc ⟨hat'.pos, hat'.flags, hat'.room, hat'.loc⟩ rfl (.inl ?_) hr hat'.depth hat'.root hc ?_⟩
          · show s'.current.kind = _
            rw [hk]; exact k
          · show t2.rest.length < _
            have := h3.le; have := a.le; omega
  · split at h
    · rename_i hp
      obtain ⟨q, hq⟩ := isPrefix_rest hp
      obtain ⟨t1, h1, h2, h3⟩ := advance_eq hq (by decide)
      rw [show ([0x5B, 0x43, 0x44, 0x41, 0x54, 0x41, 0x5B] : List Byte).length = 7 from rfl] at h1
      rw [h1] at h
      simp only [ok_bind] at h
      split at h
      · rename_i hd
        unfold parseCdata at h
        rcases parseUntil_cases t1 .cdata [0x5D, 0x5D, 0x3E] with ⟨tok, e, k, _, l⟩ | ⟨t2, tok, p, e, _, _, a, k, _, l⟩
        · rw [e] at h
          simp only [k, if_true] at h
          cases h
          exact ⟨rfl, (ha.token tok t1 (ha.pos.trans h3) l).stop⟩
        · rw [e] at h
          simp only [k, reduceCtorEq, if_false] at h
          have hat := (ha.token tok t1 (ha.pos.trans h3) l).next (h3.trans a)
          cases hu : processCdata alloc { s with current := tok } with
          | error e => rw [hu] at h; cases h
          | ok p =>
            obtain ⟨b', s'⟩ := p
            rw [hu] at h
            obtain ⟨hs, hk⟩ := processCdata_same hu
            have hat' := hat.same hs
            cases b' with
            | false => cases h; exact ⟨rfl, hat'.stop⟩
            | true =>
              cases h
              refine ⟨rfl, .text ⟨hat'.pos, hat'.flags, hat'.room, hat'.loc⟩ rfl (.inr ?_) hr (by rw [← ha.depth]; exact hd) hat'.depth hat'.root ?_⟩
              · show s'.current.kind = _
                rw [hk rfl]; exact k
              · show t2.rest.length < _
                have := h3.le; have := a.le; omega
      · cases h
        exact ⟨rfl, .fail ⟨(ha.next h3).pos, ha.flags, ha.room, ha.loc⟩ ha.ctx⟩
    · cases h
      exact ⟨rfl, ha.stop⟩

theorem readInstructions_spec {ctx : Ctx} (ha : At r s t) (h : readInstructions ctx s t = .ok (b, r')) :
    b = true ∧ (r'.ctx = .error ∧ Frame r r' ∨
      r'.ctx = ctx ∧ Frame r r' ∧ r'.current.kind = .instructions ∧ r'.depth = r.depth ∧ r'.rootFound = r.rootFound ∧
        r'.tz.rest.length < t.rest.length) := by
  unfold readInstructions at h
  rcases parseInstructions_cases t with ⟨t2, tok, e, k, a, l⟩ | ⟨t2, tok, p, e, hp, _, a, k, _, l⟩
  · rw [e] at h
    simp only [k, if_true] at h
    cases h
    exact ⟨rfl, .inl ⟨ha.ctx, (ha.token tok t ha.pos l).frame⟩⟩
  · rw [e] at h
    simp only [k, reduceCtorEq, if_false] at h
    have hat := (ha.token tok t ha.pos l).next a
    split at h
    · cases h
    · cases h
      exact ⟨rfl, .inl ⟨ha.ctx, hat.stored, hat.flags, hat.room, t, ha.pos, l⟩⟩
    · cases h
      refine ⟨rfl, .inr ⟨rfl, ⟨hat.pos, hat.flags, hat.room, hat.loc⟩, k, hat.depth, hat.root, ?_⟩⟩
      show t2.rest.length < _
      rw [hp, List.length_append, List.length_append]
      have : (ascii "?>").length = 2 := rfl
      omega

theorem readClose_move (hr : r.ctx = .content ∨ r.ctx = .none) (ha : At r s t) (hl : t.rest.length < r.tz.rest.length)
    (hs : r.depth = 0 → Closing s.tz.rest) (h : readClose s t = .ok (b, r')) : b = true ∧ Move r r' := by
  unfold readClose at h
  obtain ⟨t1, tok, e, _, a, _, _, l, _, _⟩ := parseName_eq t
  rw [e] at h
  simp only [ok_bind] at h
  obtain ⟨t2, e2, _, a2⟩ := skipWs_eq t1
  rw [e2] at h
  simp only [ok_bind] at h
  have hat := (ha.token { tok with kind := .tagClose } t ha.pos l).next (a.trans a2)
  cases hd : (deref t2.rest != 0) with
  | false => rw [hd] at h; cases h; exact ⟨rfl, hat.stop⟩
  | true =>
    rw [hd] at h
    dsimp only at h
    split at h
    · cases h
      refine ⟨rfl, .fail ⟨ha.stored, ha.flags, ha.room, t2, hat.pos, rfl⟩ ha.ctx⟩
    · rename_i h3
      obtain ⟨t3, e3, h4, a3⟩ := advance_one (t := t2) (b := 0x3E) (by simpa using h3) (by decide) (by decide)
      rw [e3] at h
      simp only [ok_bind] at h
      have hat3 := hat.next a3
      have hle : t3.rest.length < r.tz.rest.length := by have := a.le; have := a2.le; have := a3.le; omega
      split at h
      · rename_i h0
        cases h
        exact ⟨rfl, .stuck ⟨hat3.stored, hat3.flags, hat3.room, hat3.loc⟩ rfl rfl hr (by rw [← ha.depth]; exact h0) h0 hat3.root
          (hs (by rw [← ha.depth]; exact h0))⟩
      · rename_i h0
        have hdep : s.depth = r.depth := ha.depth
        split at h
        · rename_i h1
          cases h
          exact ⟨rfl, .closed ⟨hat3.pos, hat3.flags, hat3.room, hat3.loc⟩ rfl rfl hr (by dsimp only at *; omega) hat3.root hle⟩
        · rename_i h1
          cases h
          refine ⟨rfl, .closed ⟨hat3.pos, hat3.flags, hat3.room, hat3.loc⟩ ?_ rfl hr (by dsimp only at *; omega) hat3.root hle⟩
          dsimp only
          rw [if_neg h1]

theorem readOpen_move (hr : r.ctx = .content ∨ r.ctx = .none) (ha : At r s t) (hl : t.rest.length < r.tz.rest.length)
    (hc : r.depth = 0 → ¬ Closing r.tz.rest) (h : readOpen s t = .ok (b, r')) : b = true ∧ Move r r' := by
  unfold readOpen at h
  obtain ⟨t1, tok, e, _, a, hk, _, l, _, _⟩ := parseName_eq t
  rw [e] at h
  simp only [ok_bind] at h
  have hat := (ha.token tok t ha.pos l).next a
  split at h
  · cases h
    exact ⟨rfl, .fail ⟨hat.pos, hat.flags, hat.room, hat.loc⟩ ha.ctx⟩
  · rename_i hne
    have hk : tok.kind = .tagOpen := hk.resolve_right hne
    obtain ⟨t2, e2, _, a2⟩ := skipWs_eq t1
    rw [e2] at h
    simp only [ok_bind] at h
    have hat2 := hat.next a2
    have hle : t2.rest.length < r.tz.rest.length := by have := a.le; have := a2.le; omega
    cases hd : (deref t2.rest != 0) with
    | false => rw [hd] at h; cases h; exact ⟨rfl, hat.stop⟩
    | true =>
      rw [hd] at h
      dsimp only at h
      split at h
      · rename_i h3
        obtain ⟨t3, e3, h4, a3⟩ := advance_one (t := t2) (b := 0x3E) h3 (by decide) (by decide)
        rw [e3] at h
        simp only [ok_bind] at h
        cases h
        have hat3 := hat2.next a3
        refine ⟨rfl, .opened ⟨hat3.pos, hat3.flags, hat3.room, hat3.loc⟩ rfl hk hr ?_ rfl hc ?_⟩
        · show s.depth + 1 = _
          rw [ha.depth]
        · show t3.rest.length < _
          have := a3.le; omega
      · split at h
        · cases h
          exact ⟨rfl, .tag ⟨hat2.pos, hat2.flags, hat2.room, hat2.loc⟩ rfl hk hr hat2.depth rfl hc hle⟩
        · cases h
          exact ⟨rfl, .tag ⟨hat2.pos, hat2.flags, hat2.room, hat2.loc⟩ rfl hk hr hat2.depth rfl hc hle⟩

theorem readMarkup_move (hr : r.ctx = .content ∨ r.ctx = .none) (ha : At r s t) (hn : Near r s t) (hd : deref t.rest = 0x3C)
    (h : readMarkup alloc s t = .ok (b, r')) : b = true ∧ Move r r' := by
  unfold readMarkup at h
  obtain ⟨t1, e1, h1, a1⟩ := advance_one hd (by decide) (by decide)
  rw [e1] at h
  simp only [ok_bind] at h
  have hat := ha.next a1
  have hl1 : t1.rest.length < r.tz.rest.length := by
    have h2 := ha.pos.le
    rw [h1, List.length_cons] at h2; omega
  have fresh : deref t1.rest ≠ 0 → deref t1.rest ≠ 0x2F → r.depth = 0 → ¬ Closing r.tz.rest := by
    intro h0 hne h2
    obtain ⟨q, hq⟩ := deref_cons (b := deref t1.rest) rfl h0
    unfold Closing
    rw [← hn.call h2]
    exact not_close (by rw [h1, ← hq]) hne
  split at h
  · cases h; exact ⟨rfl, hat.stop⟩
  · rename_i h0
    split at h
    · rename_i hb
      obtain ⟨t2, e2, h2, a2⟩ := advance_one hb (by decide) (by decide)
      rw [e2] at h
      simp only [ok_bind] at h
      exact readBang_move hr (hat.next a2) (by have := a2.le; omega) (fresh h0 (by rw [hb]; decide)) h
    · split at h
      · rename_i hb
        obtain ⟨t2, e2, h2, a2⟩ := advance_one hb (by decide) (by decide)
        rw [e2] at h
        simp only [ok_bind] at h
        obtain ⟨rfl, h3 | ⟨h3, f, k, d, o, l⟩⟩ := readInstructions_spec (hat.next a2) h
        · exact ⟨rfl, .fail h3.2 h3.1⟩
        · exact ⟨rfl, .misc f h3 (.inr k) hr d o (fresh h0 (by rw [hb]; decide)) (by have := a2.le; omega)⟩
      · split at h
        · rename_i hb
          obtain ⟨t2, e2, h2, a2⟩ := advance_one hb (by decide) (by decide)
          rw [e2] at h
          simp only [ok_bind] at h
          refine readClose_move hr (hat.next a2) (by have := a2.le; omega) (fun h3 => ?_) h
          unfold Closing
          rw [hn.stored h3, h1, h2, List.dropWhile_cons_of_neg (by decide), ascii_close]
          exact ⟨t2.rest, rfl⟩
        · rename_i hb
          exact readOpen_move hr hat hl1 (fresh h0 hb) h

theorem readContent_move (hr : r.ctx = .content ∨ r.ctx = .none) : ∀ (fuel : Nat) (s : Reader) (t : Tz), At r s t → Near r s t →
    readContent alloc fuel s t = .ok (b, r') → b = true ∧ Move r r' := by
  intro fuel
  induction fuel with
  | zero => intro s t _ _ h; cases h
  | succ fuel ih =>
    intro s t ha hn h
    unfold readContent at h
    split at h
    · split at h
      · rename_i h1
        simp only [Bool.and_eq_true, decide_eq_true_eq] at h1
        cases h
        refine ⟨rfl, .eof ⟨ha.stored, ha.flags, ha.room, ha.loc⟩ rfl rfl (.inr ⟨hr, ?_, ?_⟩) ha.depth ha.root⟩
        · rw [← ha.root]; exact h1.1
        · rw [← ha.depth]; exact h1.2
      · cases h; exact ⟨rfl, ha.stop⟩
    · rename_i h0
      split at h
      · rename_i hd
        exact readMarkup_move hr ha hn hd h
      · rename_i hne
        split at h
        · obtain ⟨t1, e1, h1, a1⟩ := skipWs_eq t
          rw [e1] at h
          have hat : At r { s with tz := t1 } t1 :=
            ⟨ha.ctx, ha.pos.trans a1, Adv.refl t1, ha.flags, ha.room, ha.depth, ha.root, ha.loc⟩
          cases hd : (deref t1.rest != 0) with
          | false => rw [hd] at h; cases h; exact ⟨rfl, ha.stop⟩
          | true =>
            rw [hd] at h
            dsimp only at h
            split at h
            · cases h; exact ⟨rfl, hat.stop⟩
            · rename_i h3
              refine ih _ _ hat ⟨fun h4 => ?_, fun _ => rfl⟩ h
              rw [← hn.call h4, h1, dropWhile_twice]
        · rename_i hroot
          simp only [Bool.or_eq_true, Bool.not_eq_true', decide_eq_true_eq, not_or] at hroot
          have hdep : r.depth ≠ 0 := by rw [← ha.depth]; exact hroot.2
          obtain ⟨t1, tok, e1, h1, a1, k, _, l⟩ := parseContents_eq t
          rw [e1] at h
          dsimp only at h
          have hat := (ha.token tok t ha.pos l).next a1
          split at h
          · cases h; exact ⟨rfl, hat.stop⟩
          · rename_i hk
            have hk : tok.kind = .contents := by
              rw [k] at hk ⊢
              split at hk
              · exact absurd rfl hk
              · rename_i h2; rw [if_neg h2]
            cases hu : unescapeCurrent alloc { s with current := tok } with
            | error e => rw [hu] at h; cases h
            | ok p =>
              obtain ⟨b', s'⟩ := p
              rw [hu] at h
              obtain ⟨hs, hk'⟩ := unescapeCurrent_same hu
              have hat' := hat.same hs
              cases b' with
              | false => cases h; exact ⟨rfl, hat'.stop⟩
              | true =>
                dsimp only at h
                split at h
                · exact ih _ _ (hat'.token (makeError t1) t1 hat'.pos rfl) ⟨fun h4 => absurd h4 hdep, fun h4 => absurd h4 hdep⟩ h
                · cases h
                  refine ⟨rfl, .text ⟨hat'.pos, hat'.flags, hat'.room, hat'.loc⟩ rfl (.inl ?_) hr (by omega) hat'.depth hat'.root ?_⟩
                  · show s'.current.kind = _
                    rw [hk']; exact hk
                  · show t1.rest.length < _
                    obtain ⟨q, hq⟩ := deref_cons (b := deref t.rest) rfl h0
                    have h5 : t1.rest.length ≤ q.length := by
                      rw [h1, hq, List.dropWhile_cons_of_pos (by simpa using hne)]
                      exact (List.dropWhile_sublist _).length_le
                    have h6 := ha.pos.le
                    rw [hq, List.length_cons] at h6
                    omega

theorem readEmptyEnd_move (hr : r.ctx = .insideTag) (ha : At r s t) (hd : deref t.rest = 0x2F)
    (h : readEmptyEnd s t = .ok (b, r')) : b = true ∧ Move r r' := by
  unfold readEmptyEnd at h
  obtain ⟨t1, e1, h1, a1⟩ := advance_one hd (by decide) (by decide)
  rw [e1] at h
  simp only [ok_bind] at h
  have hat := ha.next a1
  split at h
  · cases h
    exact ⟨rfl, .fail ⟨ha.stored, ha.flags, ha.room, t1, hat.pos, rfl⟩ ha.ctx⟩
  · rename_i h2
    obtain ⟨t2, e2, h3, a2⟩ := advance_one (t := t1) (b := 0x3E) (by simpa using h2) (by decide) (by decide)
    rw [e2] at h
    simp only [ok_bind] at h
    have hat2 := hat.next a2
    cases h
    refine ⟨rfl, .empty ⟨hat2.pos, hat2.flags, hat2.room, hat2.loc⟩ ?_ rfl hr hat2.depth hat2.root ?_⟩
    · dsimp only
      rw [ha.depth]
    · have h4 := ha.pos.le
      rw [h1, h3] at h4
      simp only [List.length_cons] at h4
      dsimp only
      omega

theorem readAttrName_move (hr : r.ctx = .insideTag) (ha : At r s t) (h : readAttrName s t = .ok (b, r')) : b = true ∧ Move r r' := by
  unfold readAttrName at h
  obtain ⟨t1, tok, e1, _, a1, hk, _, l, hlt, _⟩ := parseName_eq t
  rw [e1] at h
  simp only [ok_bind] at h
  have hat := ha.next a1
  split at h
  · cases h
    exact ⟨rfl, .fail ⟨hat.pos, hat.flags, hat.room, t, ha.pos, l⟩ ha.ctx⟩
  · rename_i hne
    have hk : tok.kind = .tagOpen := hk.resolve_right hne
    have hlt := hlt hk
    have hatk := (hat.token { tok with kind := .attrName } t ha.pos l)
    obtain ⟨t2, e2, _, a2⟩ := skipWs_eq t1
    rw [e2] at h
    simp only [ok_bind] at h
    cases hd : (deref t2.rest != 0) with
    | false => rw [hd] at h; cases h; exact ⟨rfl, hatk.stop⟩
    | true =>
      rw [hd] at h
      dsimp only at h
      split at h
      · cases h
        exact ⟨rfl, .fail ⟨ha.stored, ha.flags, ha.room, t2, (hat.next a2).pos, rfl⟩ ha.ctx⟩
      · rename_i h3
        obtain ⟨t3, e3, h4, a3⟩ := advance_one (t := t2) (b := 0x3D) (by simpa using h3) (by decide) (by decide)
        rw [e3] at h
        simp only [ok_bind] at h
        obtain ⟨t4, e4, _, a4⟩ := skipWs_eq t3
        rw [e4] at h
        simp only [ok_bind] at h
        have hat4 := ((hat.next a2).next a3).next a4
        cases hd : (deref t4.rest != 0) with
        | false => rw [hd] at h; cases h; exact ⟨rfl, hatk.stop⟩
        | true =>
          rw [hd] at h
          dsimp only at h
          split at h
          · cases h
            exact ⟨rfl, .fail ⟨ha.stored, ha.flags, ha.room, t4, hat4.pos, rfl⟩ ha.ctx⟩
          · cases h
            refine ⟨rfl, .name ⟨hat4.pos, hat4.flags, hat4.room, t, ha.pos, l⟩ rfl rfl hr hat4.depth hat4.root ?_⟩
            show t4.rest.length < _
            have := ha.pos.le; have := a2.le; have := a3.le; have := a4.le; omega

theorem readAttrValue_move (hr : r.ctx = .attrName) (ha : At r s t) (h : readAttrValue alloc s t = .ok (b, r')) :
    b = true ∧ Move r r' := by
  unfold readAttrValue at h
  have hv : ∃ t1 tok, parseAttrValue t = .ok (tok, t1) ∧ Adv t t1 ∧ tok.loc.line = t.loc.line ∧
      (tok.kind ≠ .error → tok.kind = .attrValue ∧ t1.rest.length < t.rest.length) := by
    by_cases hq : deref t.rest = 0x22 ∨ deref t.rest = 0x27
    · obtain ⟨q, hq'⟩ := deref_cons (b := deref t.rest) rfl (by rcases hq with h | h <;> rw [h] <;> decide)
      obtain ⟨t1, tok, e, h1, a, k, _, l⟩ := parseAttrValue_eq t _ hq q hq'
      refine ⟨t1, tok, e, a, l, fun hk => ⟨?_, ?_⟩⟩
      · rw [k] at hk ⊢
        split at hk
        · rename_i h2; rw [if_pos h2]
        · exact absurd rfl hk
      · have h3 := (List.dropWhile_sublist (· != deref t.rest) (l := q)).length_le
        have h4 := congrArg List.length hq'
        rw [h1, List.length_tail]
        rw [List.length_cons] at h4
        omega
    · rw [not_or] at hq
      exact ⟨t, _, parseAttrValue_not t hq, Adv.refl t, rfl, fun h => absurd rfl h⟩
  obtain ⟨t1, tok, e1, a1, l, hk⟩ := hv
  rw [e1] at h
  simp only [ok_bind] at h
  have hat := (ha.token tok t ha.pos l).next a1
  split at h
  · cases h
    exact ⟨rfl, .fail ⟨hat.pos, hat.flags, hat.room, hat.loc⟩ ha.ctx⟩
  · rename_i hne
    obtain ⟨hk, hlt⟩ := hk hne
    cases hu : unescapeCurrent alloc { s with current := tok } with
    | error e => rw [hu] at h; cases h
    | ok p =>
      obtain ⟨b', s'⟩ := p
      rw [hu] at h
      obtain ⟨hs, hk'⟩ := unescapeCurrent_same hu
      have hat' := hat.same hs
      simp only [ok_bind] at h
      cases b' with
      | false => cases h; exact ⟨rfl, hat'.stop⟩
      | true =>
        dsimp only at h
        have hk' : s'.current.kind = .attrValue := by rw [hk']; exact hk
        split at h
        · cases h; exact ⟨rfl, hat'.stop⟩
        · obtain ⟨t2, e2, _, a2⟩ := skipWs_eq t1
          rw [e2] at h
          simp only [ok_bind] at h
          have hat2 := hat'.next a2
          have hle : t2.rest.length < r.tz.rest.length := by have := ha.pos.le; have := a2.le; omega
          cases hd : (deref t2.rest != 0) with
          | false => rw [hd] at h; cases h; exact ⟨rfl, hat'.stop⟩
          | true =>
            rw [hd] at h
            dsimp only at h
            split at h
            · rename_i h3
              obtain ⟨t3, e3, h4, a3⟩ := advance_one (t := t2) (b := 0x3E) h3 (by decide) (by decide)
              rw [e3] at h
              simp only [ok_bind] at h
              have hat3 := hat2.next a3
              cases h
              refine ⟨rfl, .last ⟨hat3.pos, hat3.flags, hat3.room, hat3.loc⟩ rfl hk' hr ?_ hat3.root ?_⟩
              · show s'.depth + 1 = _
                rw [hat'.depth]
              · show t3.rest.length < _
                have := a3.le; omega
            · split at h
              · cases h
                exact ⟨rfl, .value ⟨hat2.pos, hat2.flags, hat2.room, hat2.loc⟩ rfl hk' hr hat2.depth hat2.root hle⟩
              · cases h
                exact ⟨rfl, .value ⟨hat2.pos, hat2.flags, hat2.room, hat2.loc⟩ rfl hk' hr hat2.depth hat2.root hle⟩

theorem readLastComment_move (hr : r.ctx = .postRoot) (ha : At r s t) (hp : [0x3C, 0x21, 0x2D, 0x2D].isPrefixOf t.rest = true)
    (h : readLastComment alloc s t = .ok (b, r')) : b = true ∧ Move r r' := by
  unfold readLastComment at h
  obtain ⟨q, hq⟩ := isPrefix_rest hp
  obtain ⟨t1, h1, h2, h3⟩ := advance_eq hq (by decide)
  rw [show ([0x3C, 0x21, 0x2D, 0x2D] : List Byte).length = 4 from rfl] at h1
  rw [h1] at h
  simp only [ok_bind] at h
  have hlt : t1.rest.length < r.tz.rest.length := by
    have := ha.pos.le
    rw [hq, ← h2, List.length_append] at this
    have e4 : ([0x3C, 0x21, 0x2D, 0x2D] : List Byte).length = 4 := rfl
    omega
  rcases parseComment_cases t1 with ⟨t2, tok, e, k, a, _, l⟩ | ⟨t2, tok, p, e, _, _, a, k, _, l⟩
  · rw [e] at h
    simp only [ok_bind, k, if_true] at h
    have hat : At r { s with current := tok, ctx := s.ctx } t2 := (ha.token tok t1 (ha.pos.trans h3) l).next (h3.trans a)
    cases hu : unescapeCurrent alloc { s with current := tok, ctx := s.ctx } with
    | error e => rw [hu] at h; cases h
    | ok p =>
      obtain ⟨b', s'⟩ := p
      rw [hu] at h
      obtain ⟨hs, hk'⟩ := unescapeCurrent_same hu
      have hat' := hat.same hs
      cases b' with
      | false => cases h; exact ⟨rfl, hat'.stop⟩
      | true => cases h; exact ⟨rfl, .fail ⟨hat'.pos, hat'.flags, hat'.room, hat'.loc⟩ hat'.ctx⟩
  · rw [e] at h
    simp only [ok_bind, k, reduceCtorEq, if_false] at h
    have hat : At r { s with current := tok } t2 := (ha.token tok t1 (ha.pos.trans h3) l).next (h3.trans a)
    cases hu : unescapeCurrent alloc { s with current := tok, ctx := .postRoot } with
    | error e => rw [hu] at h; cases h
    | ok p =>
      obtain ⟨b', s'⟩ := p
      rw [hu] at h
      obtain ⟨hs, hk'⟩ := unescapeCurrent_same hu
      have hloc : ∃ u, Adv r.tz u ∧ s'.current.loc.line = u.loc.line := by rw [hs.loc]; exact hat.loc
      cases b' with
      | false =>
        cases h
        refine ⟨rfl, .again ⟨?_, hs.flags.trans hat.flags, Nat.le_trans hat.room hs.room, hloc⟩ hs.ctx hk' hr
          (hs.depth.trans hat.depth) (hs.root.trans hat.root)⟩
        rw [hs.tz]; exact hat.stored
      | true =>
        cases h
        refine ⟨rfl, .post ⟨hat.pos, hs.flags.trans hat.flags, Nat.le_trans hat.room hs.room, hloc⟩ hs.ctx (.inl ?_) hr
          (hs.depth.trans hat.depth) (hs.root.trans hat.root) ?_⟩
        · show s'.current.kind = _
          rw [hk']; exact k
        · show t2.rest.length < _
          have := a.le; omega

theorem readPostRoot_move (hr : r.ctx = .postRoot) (ha : At r s t) (h : readPostRoot alloc s t = .ok (b, r')) :
    b = true ∧ Move r r' := by
  unfold readPostRoot at h
  obtain ⟨t1, e1, _, a1⟩ := skipWs_eq t
  rw [e1] at h
  simp only [ok_bind] at h
  have hat := ha.next a1
  cases hd : (deref t1.rest != 0) with
  | false =>
    rw [hd] at h
    cases h
    exact ⟨rfl, .eof ⟨hat.pos, hat.flags, hat.room, t1, hat.pos, rfl⟩ rfl rfl (.inl hr) hat.depth hat.root⟩
  | true =>
    rw [hd] at h
    dsimp only at h
    have hat' := hat.token (makeError t1) t1 hat.pos rfl
    split at h
    · rename_i hp
      exact readLastComment_move hr hat' hp h
    · split at h
      · rename_i hp
        obtain ⟨q, hq⟩ := isPrefix_rest hp
        obtain ⟨t2, h1, h2, h3⟩ := advance_eq hq (by decide)
        rw [show ([0x3C, 0x3F] : List Byte).length = 2 from rfl] at h1
        rw [h1] at h
        simp only [ok_bind] at h
        obtain ⟨rfl, h5 | ⟨h5, f, k, d, o, l⟩⟩ := readInstructions_spec (hat'.next h3) h
        · exact ⟨rfl, .fail h5.2 h5.1⟩
        · exact ⟨rfl, .post f h5 (.inr k) hr d o (by have := hat.pos.le; have := h3.le; omega)⟩
      · cases h
        exact ⟨rfl, .fail ⟨hat'.pos, hat'.flags, hat'.room, hat'.loc⟩ ha.ctx⟩

/-- Every call of `nextToken`: it returns false exactly in the two final contexts, and changes nothing of importance there. -/
theorem nextToken_move (h : nextToken alloc r = .ok (b, r')) :
    (b = false ∧ (r.ctx = .eof ∨ r.ctx = .error) ∧ r'.ctx = r.ctx ∧ r'.tz = r.tz ∧ Frame r r') ∨
      (b = true ∧ r.ctx ≠ .eof ∧ r.ctx ≠ .error ∧ Move r r') := by
  unfold nextToken at h
  dsimp only at h
  have ha : At r { r with ctx := .error, current := makeError r.tz } r.tz :=
    ⟨rfl, Adv.refl _, Adv.refl _, rfl, Nat.le_refl _, rfl, rfl, r.tz, Adv.refl _, rfl⟩
  split at h
  · rename_i hc
    cases h
    exact .inl ⟨rfl, .inl hc, hc.symm, rfl, Adv.refl _, rfl, Nat.le_refl _, r.tz, Adv.refl _, rfl⟩
  · rename_i hc
    cases h
    exact .inl ⟨rfl, .inr hc, hc.symm, rfl, Adv.refl _, rfl, Nat.le_refl _, r.tz, Adv.refl _, rfl⟩
  · rename_i hc
    refine .inr ?_
    obtain ⟨t1, e1, h1, a1⟩ := skipWs_eq r.tz
    rw [e1] at h
    have fin : b = true ∧ Move r r' → b = true ∧ r.ctx ≠ .eof ∧ r.ctx ≠ .error ∧ Move r r' := fun ⟨h1, h2⟩ =>
      ⟨h1, by rw [hc]; decide, by rw [hc]; decide, h2⟩
    apply fin
    cases hd : (deref t1.rest != 0) with
    | false => rw [hd] at h; cases h; exact ⟨rfl, ha.stop⟩
    | true =>
      rw [hd] at h
      dsimp only at h
      split at h
      · cases h; exact ⟨rfl, ha.stop⟩
      · refine readContent_move (.inr hc) _ _ t1 (ha.next a1) ⟨fun _ => ?_, fun _ => ?_⟩ h
        · rw [h1, dropWhile_twice]
        · show r.tz.rest.dropWhile isSpace = _
          rw [h1, dropWhile_twice]
  · rename_i hc
    obtain ⟨h1, h2⟩ := readContent_move (.inl hc) _ _ _ ha ⟨fun _ => rfl, fun _ => rfl⟩ h
    exact .inr ⟨h1, by rw [hc]; decide, by rw [hc]; decide, h2⟩
  · rename_i hc
    refine .inr ?_
    split at h
    · rename_i hd
      obtain ⟨h1, h2⟩ := readEmptyEnd_move hc ha hd h
      exact ⟨h1, by rw [hc]; decide, by rw [hc]; decide, h2⟩
    · obtain ⟨h1, h2⟩ := readAttrName_move hc ha h
      exact ⟨h1, by rw [hc]; decide, by rw [hc]; decide, h2⟩
  · rename_i hc
    obtain ⟨h1, h2⟩ := readAttrValue_move hc ha h
    exact .inr ⟨h1, by rw [hc]; decide, by rw [hc]; decide, h2⟩
  · rename_i hc
    obtain ⟨h1, h2⟩ := readPostRoot_move hc ha h
    exact .inr ⟨h1, by rw [hc]; decide, by rw [hc]; decide, h2⟩

end

end Tm.Xml
