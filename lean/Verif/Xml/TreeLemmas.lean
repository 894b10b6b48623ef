import Verif.Xml.DocLemmas

/-!
Reading elements, what is around the root, and whole documents.
-/

namespace Tm.Xml

open Tm.Uni (utf8 encode)

theorem newlines_ascii {s : List Byte} (h : s.count 0x0A = 0 := by decide) : newlines s = 0 := h

/-- What follows the name of a tag or a value is whitespace, or the end of the tag. -/
theorem Attrs.head {n : Nat} {a : List Byte} {as : List Tok} {all : Prop} (h : Attrs all n a as) (w z : List Byte) (hw : Space w) :
    ∃ v b z', a ++ (w ++ 0x3E :: z) = v ++ b :: z' ∧ Space v ∧ isSpace b = false ∧ b ≠ 0 ∧ (v ≠ [] ∨ b = 0x3E) ∧ b ≠ 0x2F := by
  cases h with
  | nil => exact ⟨w, 0x3E, z, rfl, hw, by decide, by decide, Or.inr rfl, by decide⟩
  | cons n v name w1 w2 quote x t s ts h1 h2 h3 h4 h5 h6 h7 h8 h9 h10 =>
    obtain ⟨c, q, hc, hc1, hc2, hc3, hc4, hc5, hc6⟩ := h3.cons
    exact ⟨v, c, q ++ w1 ++ ascii "=" ++ w2 ++ [quote] ++ x ++ [quote] ++ s ++ (w ++ 0x3E :: z),
      by rw [hc]; simp only [List.append_assoc, List.cons_append], h1, hc1, hc6, Or.inl h2, hc3⟩

/-- The attributes of a tag that is not empty, and its end. -/
theorem attrs_steps {n : Nat} {a : List Byte} {as : List Tok} (h : Attrs False n a as) : ∀ {r : Reader} {d : Nat} {w z : List Byte},
    Tail r d n (a ++ (w ++ 0x3E :: z)) → Space w → r.rootFound = true →
    ∃ r', Steps r as r' ∧ r'.rootFound = true ∧ St r' .content (d + 1) (n + newlines (a ++ w ++ ascii ">")) z := by
  induction h with
  | nil n =>
    intro r d w z ht hw hr
    exact ⟨r, .nil _, hr, by simpa only [List.nil_append] using ht.close hw⟩
  | cons n v name w1 w2 quote x t s ts h1 h2 h3 h4 h5 h6 h7 h8 h9 h10 ih =>
    intro r d w z ht hw hr
    obtain ⟨c, q, hc, hc1, hc2, hc3, hc4, hc5, hc6⟩ := h3.cons
    have hform : v ++ name ++ w1 ++ ascii "=" ++ w2 ++ [quote] ++ x ++ [quote] ++ s ++ (w ++ 0x3E :: z) =
        v ++ (name ++ (w1 ++ 0x3D :: (w2 ++ quote :: (x ++ quote :: (s ++ (w ++ 0x3E :: z)))))) := by
      rw [show ascii "=" = [0x3D] by decide]; simp only [List.append_assoc, List.cons_append, List.nil_append]
    rw [hform] at ht
    have s1 : St r .insideTag d (n + newlines v) (name ++ (w1 ++ 0x3D :: (w2 ++ quote :: (x ++ quote :: (s ++ (w ++ 0x3E :: z)))))) := by
      rw [hc, List.cons_append] at ht ⊢
      exact ht.more h1 hc1 hc2
    obtain ⟨r1, e1, i1, f1, s2⟩ := name_step s1 h3 h4 h5 h6
    obtain ⟨v', b, z', hv, g1, g2, g3, g4, g5⟩ := h10.head w z hw
    rw [hv] at s2
    obtain ⟨r2, e2, i2, f2, t2⟩ := value_step s2 h6 h7 h8 (h9.resolve_left id) g1 g2 g3 g4
    rw [← hv] at t2
    have hn : n + newlines v + newlines (name ++ w1 ++ ascii "=" ++ w2) + newlines ([quote] ++ x ++ [quote]) =
        n + newlines (v ++ name ++ w1 ++ ascii "=" ++ w2 ++ [quote] ++ x ++ [quote]) := by
      simp only [newlines_append]; omega
    rw [hn] at t2
    obtain ⟨r3, e3, f3, s3⟩ := ih t2 hw (by rw [f2, f1, hr])
    refine ⟨r3, .cons _ _ _ _ _ e1 i1 (.cons _ _ _ _ _ e2 ?_ e3), f3, ?_⟩
    · have : n + newlines v + newlines (name ++ w1 ++ ascii "=" ++ w2) = n + newlines (v ++ name ++ w1 ++ ascii "=" ++ w2) := by
        simp only [newlines_append]; omega
      rw [← this]; exact i2
    · have : n + newlines (v ++ name ++ w1 ++ ascii "=" ++ w2 ++ [quote] ++ x ++ [quote]) + newlines (s ++ w ++ ascii ">") =
          n + newlines (v ++ name ++ w1 ++ ascii "=" ++ w2 ++ [quote] ++ x ++ [quote] ++ s ++ w ++ ascii ">") := by
        simp only [newlines_append]; omega
      rw [← this]; exact s3

/-- Reading a part of a document. -/
def Reads' (p : Part) (n : Nat) (x : List Byte) (ts : List Tok) : Prop :=
  match p with
  | .element => ∀ (r s : Reader) (t : Tz) (d : Nat) (y : List Byte), Entry r s t d n (x ++ y) →
    ∃ r', Steps r ts r' ∧ r'.rootFound = true ∧ St r' (if d = 0 then .postRoot else .content) d (n + newlines x) y
  | .body => ∀ (r : Reader) (d : Nat) (y : List Byte), St r .content (d + 1) n (x ++ 0x3C :: y) → r.rootFound = true →
    ∃ r', Steps r ts r' ∧ r'.rootFound = true ∧ St r' .content (d + 1) (n + newlines x) (0x3C :: y)

theorem MiscItem.head {n : Nat} {m : List Byte} {k : Tok} {all : Prop} (h : MiscItem all n m k) : ∃ q, m = 0x3C :: q := by
  cases h with
  | comment t h1 h2 h3 =>
    exact ⟨[0x21, 0x2D, 0x2D] ++ encode utf8 t ++ ascii "-->", by rw [show ascii "<!--" = 0x3C :: [0x21, 0x2D, 0x2D] by decide]; rfl⟩
  | instructions t0 t h1 h2 h3 h4 h5 h6 =>
    exact ⟨[0x3F] ++ encode utf8 (t0 ++ t) ++ ascii "?>", by rw [show ascii "<?" = 0x3C :: [0x3F] by decide]; rfl⟩

theorem Xml.head {n : Nat} {x : List Byte} {ts : List Tok} {all : Prop} (h : Xml all .element n x ts) : ∃ q, x = 0x3C :: q := by
  have e : ascii "<" = [0x3C] := by decide
  cases h with
  | tags n name a as w s ts w' h1 h2 h3 h4 h5 =>
    exact ⟨name ++ a ++ w ++ ascii ">" ++ s ++ ascii "</" ++ name ++ w' ++ ascii ">", by rw [e]; simp only [List.append_assoc, List.cons_append, List.nil_append]⟩
  | empty n name a as w h1 h2 h3 h4 =>
    exact ⟨name ++ a ++ w ++ ascii "/>", by rw [e]; simp only [List.append_assoc, List.cons_append, List.nil_append]⟩

theorem xml_steps {p : Part} {n : Nat} {x : List Byte} {ts : List Tok} (h : Xml False p n x ts) : Reads' p n x ts := by
  have e : ascii "<" = [0x3C] := by decide
  have e1 : ascii ">" = [0x3E] := by decide
  have e2 : ascii "</" = [0x3C, 0x2F] := by decide
  have e3 : ascii "/>" = [0x2F, 0x3E] := by decide
  induction h with
  | tags n name a as w s ts w' h1 h2 h3 h4 h5 ih =>
    intro r s0 t d y hent
    have hform : ascii "<" ++ name ++ a ++ w ++ ascii ">" ++ s ++ ascii "</" ++ name ++ w' ++ ascii ">" ++ y =
        0x3C :: (name ++ (a ++ (w ++ 0x3E :: (s ++ 0x3C :: 0x2F :: (name ++ (w' ++ 0x3E :: y)))))) := by
      rw [e, e1, e2]; simp only [List.append_assoc, List.cons_append, List.nil_append]
    rw [hform] at hent
    obtain ⟨v, b, z', hv, g1, g2, g3, g4, g5⟩ := h2.head w (s ++ 0x3C :: 0x2F :: (name ++ (w' ++ 0x3E :: y))) h3
    rw [hv] at hent
    obtain ⟨r1, c1, i1, t1, f1, -⟩ := open_step hent h1 g1 g2 g3 (g4.imp id (fun h => by rw [h]; decide))
    rw [← hv] at t1
    obtain ⟨r2, c2, f2, s2⟩ := attrs_steps h2 t1 h3 f1
    have hn : n + newlines (ascii "<" ++ name) + newlines (a ++ w ++ ascii ">") = n + newlines (ascii "<" ++ name ++ a ++ w ++ ascii ">") := by
      simp only [newlines_append]; omega
    rw [hn] at s2
    obtain ⟨r3, c3, f3, s3⟩ := ih r2 d _ s2 f2
    obtain ⟨r4, c4, i4, f4, s4⟩ := close_step s3 h1 h4
    have hl : n + newlines (ascii "<" ++ name ++ a ++ w ++ ascii ">") + newlines s =
        n + newlines (ascii "<" ++ name ++ a ++ w ++ ascii ">" ++ s) := by
      simp only [newlines_append]; omega
    rw [hl] at i4 s4
    refine ⟨r4, ((Steps.cons _ _ _ _ _ c1 i1 c2).trans c3).trans (.cons _ _ _ _ _ c4 i4 (.nil _)), by rw [f4, f3], ?_⟩
    have : n + newlines (ascii "<" ++ name ++ a ++ w ++ ascii ">" ++ s) + newlines (ascii "</" ++ name ++ w' ++ ascii ">") =
        n + newlines (ascii "<" ++ name ++ a ++ w ++ ascii ">" ++ s ++ ascii "</" ++ name ++ w' ++ ascii ">") := by
      simp only [newlines_append]; omega
    rw [← this]; exact s4
  | empty n name a as w h1 hat h2 hall =>
    obtain ⟨rfl, rfl⟩ := hall.resolve_left id
    simp only [List.append_nil]
    intro r s0 t d y hent
    have hform : ascii "<" ++ name ++ w ++ ascii "/>" ++ y = 0x3C :: (name ++ (w ++ 0x2F :: 0x3E :: y)) := by
      rw [e, e3]; simp only [List.append_assoc, List.cons_append, List.nil_append]
    rw [hform] at hent
    obtain ⟨r1, c1, i1, t1, f1, g1⟩ := open_step hent h1 h2 (by decide) (by decide) (Or.inr (by decide))
    have s1 := t1.more h2 (by decide) (by decide)
    obtain ⟨r2, c2, i2, f2, s2⟩ := empty_step s1
    rw [g1 rfl] at i2
    have hn : n + newlines (ascii "<" ++ name) + newlines w = n + newlines (ascii "<" ++ name ++ w) := by
      simp only [newlines_append]; omega
    rw [hn] at i2 s2
    refine ⟨r2, .cons _ _ _ _ _ c1 i1 (.cons _ _ _ _ _ c2 i2 (.nil _)), by rw [f2, f1], ?_⟩
    rw [newlines_append _ (ascii "/>"), ← Nat.add_assoc]; exact s2
  | nil n =>
    intro r d y hs hr
    exact ⟨r, .nil _, hr, hs⟩
  | element n el es s ts h1 h2 ih1 ih2 =>
    intro r d y hs hr
    obtain ⟨q, hq⟩ := h1.head
    rw [List.append_assoc] at hs
    obtain ⟨s1, t1, hent⟩ := entry_content (x := q ++ (s ++ 0x3C :: y)) (by rw [← List.cons_append, ← hq]; exact hs)
    rw [← List.cons_append, ← hq] at hent
    obtain ⟨r1, c1, f1, s1⟩ := ih1 r _ _ _ _ hent
    rw [if_neg (by omega)] at s1
    obtain ⟨r2, c2, f2, s2⟩ := ih2 r1 d y s1 f1
    exact ⟨r2, c1.trans c2, f2, by rw [newlines_append, ← Nat.add_assoc]; exact s2⟩
  | misc n m k s ts h1 h2 ih =>
    intro r d y hs hr
    obtain ⟨q, hq⟩ := h1.head
    rw [List.append_assoc] at hs
    obtain ⟨s1, t1, hent⟩ := entry_content (x := q ++ (s ++ 0x3C :: y)) (by rw [← List.cons_append, ← hq]; exact hs)
    rw [← List.cons_append, ← hq] at hent
    obtain ⟨r1, c1, i1, f1, s1⟩ := misc_step hent h1
    obtain ⟨r2, c2, f2, s2⟩ := ih r1 d y s1 (by rw [f1, hr])
    exact ⟨r2, .cons _ _ _ _ _ c1 i1 c2, f2, by rw [newlines_append, ← Nat.add_assoc]; exact s2⟩
  | cdata n t s ts h1 h2 h3 ih =>
    intro r d y hs hr
    rw [List.append_assoc _ s] at hs
    obtain ⟨r1, c1, i1, f1, s1⟩ := cdata_step hs h1 h2
    obtain ⟨r2, c2, f2, s2⟩ := ih r1 d y s1 (by rw [f1, hr])
    exact ⟨r2, .cons _ _ _ _ _ c1 i1 c2, f2, by rw [newlines_append _ s, ← Nat.add_assoc]; exact s2⟩
  | text n x t s ts h1 h2 h3 h4 h5 ih =>
    intro r d y hs hr
    rw [List.append_assoc] at hs
    have hhead : ∃ q, s ++ 0x3C :: y = 0x3C :: q := by
      rcases h4 with rfl | ⟨q, rfl⟩
      · exact ⟨y, rfl⟩
      · exact ⟨q ++ 0x3C :: y, by rw [e]; rfl⟩
    obtain ⟨q, hq⟩ := hhead
    rw [hq] at hs
    obtain ⟨r1, c1, i1, f1, s1⟩ := text_step hs hr h1 h2 (h3.resolve_left id)
    rw [← hq] at s1
    obtain ⟨r2, c2, f2, s2⟩ := ih r1 d y s1 (by rw [f1, hr])
    exact ⟨r2, .cons _ _ _ _ _ c1 i1 c2, f2, by rw [newlines_append, ← Nat.add_assoc]; exact s2⟩

/-- What is in front of the root. -/
theorem before_steps {n : Nat} {m : List Byte} {ms : List Tok} (h : Around False n m ms) : ∀ {r : Reader} {c : Ctx} {y : List Byte},
    St r c 0 n (m ++ 0x3C :: y) → r.rootFound = false → (c = .none ∨ c = .content) →
    ∃ r' s t, Steps r ms r' ∧ Entry r' s t 0 (n + newlines m) (0x3C :: y) := by
  induction h with
  | space n w hw =>
    intro r c y hs hr hc
    obtain ⟨s, t, he⟩ := entry_before hs hr hc hw
    exact ⟨r, s, t, .nil _, he⟩
  | item n w m k s ts hw hm hs ih =>
    intro r c y h hr hc
    obtain ⟨q, hq⟩ := hm.head
    have hform : w ++ m ++ s ++ 0x3C :: y = w ++ 0x3C :: (q ++ (s ++ 0x3C :: y)) := by
      rw [hq]; simp only [List.append_assoc, List.cons_append]
    rw [hform] at h
    obtain ⟨s1, t1, he⟩ := entry_before h hr hc hw
    rw [← List.cons_append, ← hq] at he
    obtain ⟨r1, c1, i1, f1, s1⟩ := misc_step he hm
    rw [Nat.add_assoc, ← newlines_append] at s1
    obtain ⟨r2, s2, t2, c2, e2⟩ := ih s1 (by rw [f1, hr]) (Or.inr rfl)
    refine ⟨r2, s2, t2, .cons _ _ _ _ _ c1 i1 c2, ?_⟩
    rw [newlines_append (w ++ m) s, ← Nat.add_assoc]; exact e2

/-- A comment or processing instructions behind the root. -/
theorem last_step {r : Reader} {n : Nat} {w m y : List Byte} {k : Tok} (h : St r .postRoot 0 n (w ++ (m ++ y))) (hw : Space w)
    (hm : MiscItem False (n + newlines w) m k) :
    ∃ r', nextToken rich r = .ok (true, r') ∧ Is r'.current k ∧ St r' .postRoot 0 (n + newlines (w ++ m)) y := by
  obtain ⟨q, hq⟩ := hm.head
  obtain ⟨t, h1, h2, h3⟩ := hw.skip (t := r.tz) (b := 0x3C) (y := q ++ y) (by rw [h.rest, hq]; rfl) (by decide) (by decide)
  rw [← List.cons_append, ← hq] at h2
  have hl := h3.line h.line (p := w) (by rw [h.rest, h2])
  unfold nextToken
  rw [h.ctx]
  dsimp only
  unfold readPostRoot
  rw [h1]
  simp only [ok_bind]
  cases hm with
  | comment ts hx hn hall =>
    obtain ⟨hmod, ha⟩ := hall.resolve_left id
    have e0 : ascii "<!--" = [0x3C, 0x21, 0x2D, 0x2D] := by decide
    have hrest : t.rest = [0x3C, 0x21, 0x2D, 0x2D] ++ (encode utf8 ts ++ (ascii "-->" ++ y)) := by
      rw [h2, e0]; simp only [List.append_assoc]
    rw [if_pos (by rw [hrest, prefix_iff]; exact List.prefix_append _ _)]
    obtain ⟨t3, e3, r3, a3⟩ := advance_eq hrest (by decide)
    obtain ⟨t4, tok, e4, r4, a4, k4, c4, l4⟩ := comment_parse hn r3
    have l3 := a3.line hl (p := ascii "<!--") (by rw [hrest, r3, e0])
    have l5 := (a3.trans a4).line hl (p := ascii "<!--" ++ encode utf8 ts ++ ascii "-->") (by rw [h2, r4])
    unfold readLastComment
    rw [show (4 : Nat) = ([0x3C, 0x21, 0x2D, 0x2D] : List Byte).length from rfl, e3]
    simp only [ok_bind]
    rw [e4]
    simp only [ok_bind, k4, reduceCtorEq, if_false]
    obtain ⟨s', hu, ht⟩ := unescapeCurrent_comment
      (r := { r with ctx := .postRoot, current := tok }) h.flags c4 k4 hx ha hmod h.room
    obtain ⟨hs, hsk⟩ := unescapeCurrent_same hu
    rw [hu]
    refine ⟨_, rfl, ⟨by rw [← k4]; exact hsk, ht, ?_⟩, ?_, ?_, ?_, ?_, r4, ?_⟩
    · show s'.current.loc.line = _
      rw [hs.loc]; show tok.loc.line = _; rw [l4, l3]; rfl
    · show s'.ctx = _; rw [hs.ctx]
    · show s'.depth = _; rw [hs.depth]; exact h.depth
    · show s'.flags.Verbatim; rw [hs.flags]; exact h.flags
    · exact Nat.le_trans h.room hs.room
    · rw [newlines_append w, ← Nat.add_assoc]; exact l5
  | instructions target t' hname hnx hx ht' hn hall =>
    obtain ⟨hb, hv⟩ := hall.resolve_left id
    have hne := target_ne hname t'
    have hr := target_prefix hname hx ht' hb
    generalize target ++ t' = ts at *
    have e0 : ascii "<?" = [0x3C, 0x3F] := by decide
    have hrest : t.rest = [0x3C, 0x3F] ++ (encode utf8 ts ++ (ascii "?>" ++ y)) := by
      rw [h2, e0]; simp only [List.append_assoc]
    rw [if_neg (by rw [hrest]; simp [List.isPrefixOf]), if_pos (by rw [hrest, prefix_iff]; exact List.prefix_append _ _)]
    obtain ⟨t2, e2, r2, a2⟩ := advance_eq hrest (by decide)
    obtain ⟨t3, tok, e3, r3, a3, k3, c3, l3⟩ := instructions_parse hx hne hn hv hr r2 .postRoot
      { r with ctx := .error, current := makeError t }
    have l2 := a2.line hl (p := ascii "<?") (by rw [hrest, r2, e0])
    have l4 := (a2.trans a3).line hl (p := ascii "<?" ++ encode utf8 ts ++ ascii "?>") (by rw [h2, r3])
    rw [show (2 : Nat) = ([0x3C, 0x3F] : List Byte).length from rfl, e2]
    simp only [ok_bind]
    rw [e3]
    refine ⟨_, rfl, ⟨k3, c3, by show tok.loc.line = _; rw [l3, l2]; rfl⟩, rfl, h.depth, h.flags, h.room, r3, ?_⟩
    rw [newlines_append w, ← Nat.add_assoc]; exact l4

/-- Whitespace up to the end of the document. -/
theorem Space.skip_end {w : List Byte} (h : Space w) {t : Tz} (ht : t.rest = w) :
    ∃ t', skipWs t = .ok (t', false) ∧ t'.rest = [] ∧ Adv t t' := by
  obtain ⟨t', h1, h2, h3⟩ := skipWs_eq t
  rw [ht] at h2
  have h4 : w.dropWhile isSpace = [] := by
    have : ∀ v : List Byte, (∀ b ∈ v, isSpace b = true) → v.dropWhile isSpace = [] := by
      intro v
      induction v with
      | nil => exact fun _ => rfl
      | cons b v ih =>
        intro h
        rw [List.dropWhile_cons, if_pos (h b (List.mem_cons_self ..))]
        exact ih (fun c hc => h c (List.mem_cons_of_mem _ hc))
    exact this w h.bytes
  rw [h4] at h2
  refine ⟨t', ?_, h2, h3⟩
  rw [h1, h2]
  rfl

/-- What is behind the root, and the end. -/
theorem after_steps {n : Nat} {m : List Byte} {ms : List Tok} (h : Around False n m ms) : ∀ {r : Reader}, St r .postRoot 0 n m →
    ∃ r', Steps r (ms ++ [(.eof, [], n + newlines m)]) r' ∧ r'.ctx = .eof := by
  induction h with
  | space n w hw =>
    intro r h
    obtain ⟨t, h1, h2, h3⟩ := hw.skip_end h.rest
    have hl := h3.line h.line (p := w) (by rw [h.rest, h2, List.append_nil])
    refine ⟨{ r with current := { kind := .eof, contents := { text := [], after := t.rest ++ [0] }, loc := t.loc },
                     ctx := .eof, tz := t }, .cons _ _ _ _ _ ?_ ⟨rfl, rfl, hl⟩ (.nil _), rfl⟩
    unfold nextToken
    rw [h.ctx]
    dsimp only
    unfold readPostRoot
    rw [h1]
    rfl
  | item n w m k s ts hw hm hs ih =>
    intro r h
    rw [List.append_assoc] at h
    obtain ⟨r1, c1, i1, s1⟩ := last_step h hw hm
    obtain ⟨r2, c2, f2⟩ := ih s1
    refine ⟨r2, .cons _ _ _ _ _ c1 i1 ?_, f2⟩
    rw [newlines_append (w ++ m) s, ← Nat.add_assoc]; exact c2

/-- Whole documents. -/
theorem doc_steps {doc : List Byte} {ts : List Tok} {n : Nat} (h : Doc False n doc ts) {r : Reader} (hs : St r .none 0 n doc) (hr : r.rootFound = false) :
    ∃ r', Steps r ts r' ∧ r'.ctx = .eof := by
  cases h with
  | mk m ms e es m' ms' h1 h2 h3 =>
    obtain ⟨q, hq⟩ := h2.head
    have hform : m ++ e ++ m' = m ++ 0x3C :: (q ++ m') := by rw [hq]; simp only [List.append_assoc, List.cons_append]
    rw [hform] at hs
    obtain ⟨r1, s1, t1, c1, e1⟩ := before_steps h1 hs hr (Or.inl rfl)
    rw [← List.cons_append, ← hq] at e1
    obtain ⟨r2, c2, f2, s2⟩ := xml_steps h2 _ _ _ _ _ e1
    rw [if_pos rfl, Nat.add_assoc, ← newlines_append] at s2
    obtain ⟨r3, c3, f3⟩ := after_steps h3 s2
    refine ⟨r3, ?_, f3⟩
    rw [newlines_append (m ++ e) m', ← Nat.add_assoc, List.append_assoc]
    exact (c1.trans c2).trans c3

/-- The loop of a user. -/
theorem Steps.readAll {r r' : Reader} {ts : List Tok} (h : Steps r ts r') (he : r'.ctx = .eof) :
    ∃ toks r'', Tm.Xml.readAll (ts.length + 1) r = .ok (toks, r'') ∧ toks.map (fun k => (k.kind, k.contents.text, k.loc.line)) = ts.map (fun k => (k.1, k.2.1, BitVec.ofNat 32 k.2.2)) ∧ r''.ctx = .eof := by
  induction h with
  | nil r =>
    refine ⟨[], { r with ctx := .eof, current := makeError r.tz }, ?_, rfl, rfl⟩
    unfold Tm.Xml.readAll
    unfold nextToken
    rw [he]
    rfl
  | cons r r1 r2 k ks h1 h2 _ ih =>
    obtain ⟨toks, r3, h3, h4, h5⟩ := ih he
    refine ⟨r1.current :: toks, r3, ?_, (by rw [List.map_cons, List.map_cons, h4, h2.1, h2.2.1, h2.2.2]), h5⟩
    show Tm.Xml.readAll (ks.length + 1 + 1) r = _
    unfold Tm.Xml.readAll
    rw [h1]
    simp only [ok_bind]
    rw [h3]
    rfl

end Tm.Xml
