import Verif.Xml.TreeLemmas
import Verif.Xml.PrologLemmas

/-!
Reading the prolog of a document.
-/

namespace Tm.Xml

open Tm.Uni (utf8 encode)

/-- Where a tokenizer is, behind `n` newlines. -/
structure Pos (t : Tz) (n : Nat) (s : List Byte) : Prop where
  rest : t.rest = s
  line : t.loc.line = BitVec.ofNat 32 n

theorem Pos.adv {t t' : Tz} {n : Nat} {p s : List Byte} (h : Pos t n (p ++ s)) (ha : Adv t t') (hr : t'.rest = s) : Pos t' (n + newlines p) s :=
  ⟨hr, ha.line h.line (by rw [h.rest, hr])⟩

/-- `= "value"` -/
theorem value_read {t : Tz} {n : Nat} {w1 w2 : List Byte} {quote : Byte} {value y : List Byte} (h : Pos t n (w1 ++ ascii "=" ++ w2 ++ [quote] ++ value ++ [quote] ++ y))
    (h1 : Space w1) (h2 : Space w2) (hq : quote = 0x22 ∨ quote = 0x27) (hv : value ≠ []) (hqv : quote ∉ value) :
    ∃ t' v, prologValue t = .ok (some (v, t')) ∧ v.text = value ∧ v.after = quote :: (y ++ [0]) ∧
      Pos t' (n + newlines (w1 ++ ascii "=" ++ w2 ++ [quote] ++ value ++ [quote])) y := by
  have e : ascii "=" = [0x3D] := by decide
  have hform : w1 ++ ascii "=" ++ w2 ++ [quote] ++ value ++ [quote] ++ y = w1 ++ 0x3D :: (w2 ++ quote :: (value ++ quote :: y)) := by
    rw [e]; simp only [List.append_assoc, List.cons_append, List.nil_append]
  have hr := h.rest
  rw [hform] at hr
  have hqs : isSpace quote = false := by rcases hq with rfl | rfl <;> decide
  have hq0 : quote ≠ 0 := by rcases hq with rfl | rfl <;> decide
  obtain ⟨t1, e1, r1, a1⟩ := h1.skip hr (by decide) (by decide)
  obtain ⟨t2, e2, r2, a2⟩ := advance_first r1 (by decide) (by decide)
  obtain ⟨t3, e3, r3, a3⟩ := h2.skip r2 hqs hq0
  obtain ⟨t4, tok, e4, r4, a4, k4, c4, l4⟩ := parseAttrValue_eq t3 quote hq _ r3
  obtain ⟨g1, g2⟩ := take_append (p := (· != quote)) (a := value) (b := quote) (s := y)
    (fun b hb => by
      rw [bne_iff_ne]
      rintro rfl
      exact hqv hb) (by simp)
  rw [g2, List.tail_cons] at r4
  rw [g1, g2] at c4
  rw [if_pos (by simp)] at k4
  refine ⟨t4, tok.contents, ?_, by rw [c4], by rw [c4]; rfl, h.adv (((a1.trans a2).trans a3).trans a4) r4⟩
  unfold prologValue
  rw [e1]
  simp only [ok_bind]
  rw [if_neg (by rw [r1]; exact (fun h => h rfl)), e2]
  simp only [ok_bind]
  rw [e3]
  simp only [ok_bind]
  rw [e4]
  simp only [ok_bind]
  rw [if_neg (by rw [k4]; exact (fun h => h rfl)), if_neg (by rw [c4]; simpa using hv)]

/-- A name behind a setting. -/
theorem next_read {t : Tz} {n : Nat} {w name : List Byte} {b : Byte} {y : List Byte} (h : Pos t n (w ++ (name ++ b :: y)))
    (hw : Space w) (hw' : w ≠ []) (hname : Name name) (hb : nameEnd b = true) :
    ∃ t' tok, prologNext t = .ok (some (tok, t')) ∧ tok.kind = .tagOpen ∧ tok.contents.text = name ∧ Pos t' (n + newlines (w ++ name)) (b :: y) := by
  obtain ⟨c, q, hc, hc1, hc2, hc3, hc4, hc5, hc6⟩ := hname.cons
  have hr := h.rest
  rw [hc, List.cons_append] at hr
  obtain ⟨t1, e1, r1, a1⟩ := hw.skip hr hc1 hc6
  rw [← List.cons_append, ← hc] at r1
  obtain ⟨t2, tok, e2, r2, a2, k2, c2, l2⟩ := hname.parse r1 hb
  refine ⟨t2, tok, ?_, k2, c2, ?_⟩
  · unfold prologNext
    have hd : ([0x20, 0x09, 0x0D, 0x0A, 0x3F, 0] : List Byte).contains (deref t.rest) = true := by
      rw [h.rest]
      cases w with
      | nil => exact absurd rfl hw'
      | cons b' w =>
        show ([0x20, 0x09, 0x0D, 0x0A, 0x3F, 0] : List Byte).contains b' = true
        rcases hw b' (List.mem_cons_self ..) with rfl | rfl | rfl | rfl <;> decide
    rw [hd]
    simp only [Bool.not_true, Bool.false_eq_true, if_false]
    rw [e1]
    simp only [ok_bind]
    rw [e2]
    rfl
  · exact (show Pos t n ((w ++ name) ++ b :: y) by rw [List.append_assoc]; exact h).adv (a1.trans a2) r2

/-- No name behind a setting. -/
theorem next_none {t : Tz} {n : Nat} {w y : List Byte} (h : Pos t n (w ++ 0x3F :: y)) (hw : Space w) :
    ∃ t' tok, prologNext t = .ok (some (tok, t')) ∧ tok.kind = .error ∧ Pos t' (n + newlines w) (0x3F :: y) := by
  obtain ⟨t1, e1, r1, a1⟩ := hw.skip h.rest (by decide) (by decide)
  have hd : ([0x20, 0x09, 0x0D, 0x0A, 0x3F, 0] : List Byte).contains (deref t.rest) = true := by
    rw [h.rest]
    cases w with
    | nil => exact (by decide : ([0x20, 0x09, 0x0D, 0x0A, 0x3F, 0] : List Byte).contains 0x3F = true)
    | cons b' w =>
      show ([0x20, 0x09, 0x0D, 0x0A, 0x3F, 0] : List Byte).contains b' = true
      rcases hw b' (List.mem_cons_self ..) with rfl | rfl | rfl | rfl <;> decide
  have hp : ∃ t2 tok, parseName t1 = .ok (tok, t2) ∧ tok.kind = .error ∧ t2.rest = 0x3F :: y ∧ Adv t1 t2 := by
    obtain ⟨t2, tok, h1, h2, h3, h4, _, _, h5, _⟩ := parseName_eq t1
    rw [r1, List.dropWhile_cons, if_neg (by decide)] at h2
    refine ⟨t2, tok, h1, h4.resolve_left (fun h => ?_), h2, h3⟩
    have := h5 h
    rw [h2, r1] at this
    exact Nat.lt_irrefl _ this
  obtain ⟨t2, tok, e2, k2, r2, a2⟩ := hp
  refine ⟨t2, tok, ?_, k2, h.adv (a1.trans a2) r2⟩
  unfold prologNext
  rw [hd]
  simp only [Bool.not_true, Bool.false_eq_true, if_false]
  rw [e1]
  simp only [ok_bind]
  rw [e2]
  rfl

/-- The end of the declaration. -/
theorem end_read {t : Tz} {n : Nat} {w y : List Byte} (h : Pos t n (w ++ 0x3F :: 0x3E :: y)) (hw : Space w) {tok : Token} (hk : tok.kind = .error)
    {out : Prolog} (ho : out.version ≠ []) :
    ∃ t', prologEnd tok out t = .ok (some (out, t')) ∧ Pos t' (n + newlines (w ++ ascii "?>")) y := by
  obtain ⟨t1, e1, r1, a1⟩ := hw.skip h.rest (by decide) (by decide)
  obtain ⟨t2, e2, r2, a2⟩ := advance_first r1 (by decide) (by decide)
  obtain ⟨t3, e3, r3, a3⟩ := advance_first r2 (by decide) (by decide)
  refine ⟨t3, ?_, (show Pos t n ((w ++ ascii "?>") ++ y) by
    rw [show ascii "?>" = [0x3F, 0x3E] by decide, List.append_assoc]; exact h).adv ((a1.trans a2).trans a3) r3⟩
  unfold prologEnd
  rw [if_neg (by rw [hk]; decide), e1]
  simp only [ok_bind]
  rw [if_neg (by simpa using ho), if_neg (by rw [r1]; exact (fun h => h rfl)), e2]
  simp only [ok_bind]
  rw [if_neg (by rw [r2]; exact (fun h => h rfl)), e3]
  rfl

theorem name_version : Name (ascii "version") := .mk 0x76 [0x65, 0x72, 0x73, 0x69, 0x6F, 0x6E] (by decide) (by decide)
theorem name_encoding : Name (ascii "encoding") := .mk 0x65 [0x6E, 0x63, 0x6F, 0x64, 0x69, 0x6E, 0x67] (by decide) (by decide)
theorem name_standalone : Name (ascii "standalone") := .mk 0x73 [0x74, 0x61, 0x6E, 0x64, 0x61, 0x6C, 0x6F, 0x6E, 0x65] (by decide) (by decide)

/-- What is behind the name of a setting ends it. -/
theorem after_name {w : List Byte} (hw : Space w) (s : List Byte) : ∃ b q, w ++ ascii "=" ++ s = b :: q ∧ nameEnd b = true := by
  cases w with
  | nil => exact ⟨0x3D, s, by rw [show ascii "=" = [0x3D] by decide]; rfl, by decide⟩
  | cons b w =>
    refine ⟨b, w ++ ascii "=" ++ s, rfl, ?_⟩
    rcases hw b (List.mem_cons_self ..) with rfl | rfl | rfl | rfl <;> decide

/-- A setting behind another one. -/
theorem setting_read {t : Tz} {n : Nat} {name value s y : List Byte} (hs : Setting name value s) (hname : Name name) (h : Pos t n (s ++ y)) :
    ∃ t1 tok t2 v, prologNext t = .ok (some (tok, t1)) ∧ tok.kind = .tagOpen ∧ tok.contents.text = name ∧
      prologValue t1 = .ok (some (v, t2)) ∧ v.text = value ∧ Pos t2 (n + newlines s) y := by
  cases hs with
  | mk w w1 w2 quote h1 h2 h3 h4 h5 h6 h7 h8 =>
    obtain ⟨b, q, hb, hb'⟩ := after_name h3 (w2 ++ [quote] ++ value ++ [quote] ++ y)
    have hform : w ++ name ++ w1 ++ ascii "=" ++ w2 ++ [quote] ++ value ++ [quote] ++ y = w ++ (name ++ b :: q) := by
      rw [← hb]; simp only [List.append_assoc]
    obtain ⟨t1, tok, e1, k1, c1, p1⟩ := next_read (by rw [← hform]; exact h) h1 h2 hname hb'
    obtain ⟨t2, v, e2, c2, -, p2⟩ := value_read (value := value) (y := y) (w1 := w1) (w2 := w2) (quote := quote) (t := t1)
      (by rw [← hb] at p1; simpa only [List.append_assoc] using p1) h3 h4 h5 h6 h7
    refine ⟨t1, tok, t2, v, e1, k1, c1, e2, c2, ?_⟩
    have : n + newlines (w ++ name) + newlines (w1 ++ ascii "=" ++ w2 ++ [quote] ++ value ++ [quote]) =
        n + newlines (w ++ name ++ w1 ++ ascii "=" ++ w2 ++ [quote] ++ value ++ [quote]) := by
      simp only [newlines_append]; omega
    rw [← this]; exact p2

/-- The optional attribute "standalone" and the end. -/
theorem standalone_read {t : Tz} {n : Nat} {value s w y : List Byte} (hs : Optionally (ascii "standalone") value s) (hw : Space w)
    (h : Pos t n (s ++ (w ++ 0x3F :: 0x3E :: y))) (hv : value = [] ∨ value = ascii "yes") {out : Prolog} (ho : out.version ≠ []) (ho' : out.standalone = true) :
    ∃ t1 tok t2, prologNext t = .ok (some (tok, t1)) ∧ prologEncoding tok out t1 = prologStandalone tok out t1 ∧
      prologStandalone tok out t1 = .ok (some ({ out with standaloneSpecified := out.standaloneSpecified || !value.isEmpty }, t2)) ∧
      Pos t2 (n + newlines (s ++ w ++ ascii "?>")) y := by
  rcases hs with ⟨rfl, rfl⟩ | hs
  · obtain ⟨t1, tok, e1, k1, p1⟩ := next_none h hw
    obtain ⟨t2, e2, p2⟩ := end_read (w := []) p1 (fun _ hb => nomatch hb) k1 ho
    refine ⟨t1, tok, t2, e1, ?_, ?_, ?_⟩
    · unfold prologEncoding
      rw [if_neg (by rw [k1]; simp)]
    · unfold prologStandalone
      rw [if_neg (by rw [k1]; simp), e2]
      simp
    · rw [List.nil_append, newlines_append, ← Nat.add_assoc]; exact p2
  · have hv' : value = ascii "yes" := by
      cases hs with
      | mk w w1 w2 quote h1 h2 h3 h4 h5 h6 h7 h8 => exact hv.resolve_left h6
    subst hv'
    obtain ⟨t1, tok, t2, v, e1, k1, c1, e2, c2, p2⟩ := setting_read hs name_standalone h
    obtain ⟨t3, e3, p3⟩ := end_read (out := { out with standaloneSpecified := true, standalone := true }) p2 hw
      (tok := { tok with kind := .error }) rfl ho
    refine ⟨t1, tok, t3, e1, ?_, ?_, ?_⟩
    · unfold prologEncoding
      rw [if_neg (by rw [c1]; exact fun h => absurd h.2 (by decide))]
    · unfold prologStandalone
      rw [if_pos ⟨k1, by rw [c1]; decide⟩, e2]
      simp only [ok_bind]
      rw [if_pos (by rw [c2]; decide), e3]
      congr 4
      · rw [show (ascii "yes").isEmpty = false by decide]; simp
      · exact ho'.symm
    · rw [List.append_assoc, newlines_append s, ← Nat.add_assoc]; exact p3

/-- The declaration behind "<?". -/
theorem declaration_read {t : Tz} {n : Nat} {version encoding standalone d y : List Byte} (hd : Declaration version encoding standalone d)
    (h : Pos t n (d ++ y)) (hs : standalone ≠ ascii "no") :
    ∃ t1 t2, advance t 2 = .ok t1 ∧ prologBody t1 = .ok (some (Prolog.mk version encoding (!standalone.isEmpty) true true false, t2)) ∧ Pos t2 (n + newlines d) y := by
  cases hd with
  | mk v e s w h1 h2 h3 h4 h5 =>
    have e0 : ascii "<?xml" = [0x3C, 0x3F] ++ [0x78, 0x6D, 0x6C] := by decide
    cases h1 with
    | mk w0 w1 w2 quote g1 g2 g3 g4 g5 g6 g7 g8 =>
    have hform : ascii "<?xml" ++ (w0 ++ ascii "version" ++ w1 ++ ascii "=" ++ w2 ++ [quote] ++ version ++ [quote]) ++ e ++ s ++ w ++ ascii "?>" ++ y =
        [0x3C, 0x3F] ++ ([0x78, 0x6D, 0x6C] ++ (w0 ++ (ascii "version" ++ (w1 ++ ascii "=" ++ (w2 ++ [quote] ++ version ++ [quote] ++
          (e ++ (s ++ (w ++ 0x3F :: 0x3E :: y)))))))) := by
      rw [e0, show ascii "?>" = [0x3F, 0x3E] by decide]; simp only [List.append_assoc, List.cons_append, List.nil_append]
    rw [hform] at h
    obtain ⟨t1, e1, r1, a1⟩ := advance_eq h.rest (by decide)
    obtain ⟨t2, e2, r2, a2⟩ := advance_eq r1 (by decide)
    have p1 := h.adv a1 r1
    have p2 := p1.adv a2 r2
    have hws : ([0x20, 0x09, 0x0D, 0x0A, 0] : List Byte).contains (deref t2.rest) = true := by
      rw [r2]
      cases w0 with
      | nil => exact absurd rfl g2
      | cons b w0 =>
        show ([0x20, 0x09, 0x0D, 0x0A, 0] : List Byte).contains b = true
        rcases g1 b (List.mem_cons_self ..) with rfl | rfl | rfl | rfl <;> decide
    obtain ⟨c, q, hc, hc1, -, -, -, -, hc6⟩ := name_version.cons
    obtain ⟨t3, e3, r3, a3⟩ := g1.skip (t := t2) (b := c) (y := q ++ (w1 ++ ascii "=" ++ (w2 ++ [quote] ++ version ++ [quote] ++
          (e ++ (s ++ (w ++ 0x3F :: 0x3E :: y)))))) (by rw [r2, hc]; rfl) hc1 hc6
    rw [← List.cons_append, ← hc] at r3
    have p3 := p2.adv a3 r3
    obtain ⟨b, z, hb, hb'⟩ := after_name g3 (w2 ++ [quote] ++ version ++ [quote] ++ (e ++ (s ++ (w ++ 0x3F :: 0x3E :: y))))
    obtain ⟨t4, tok, e4, r4, a4, k4, c4, -⟩ := name_version.parse (t := t3) (by rw [r3, hb]) hb'
    rw [← hb] at r4
    have p4 := p3.adv a4 r4
    obtain ⟨t5, v, e5, c5, -, p5⟩ := value_read (value := version) (y := e ++ (s ++ (w ++ 0x3F :: 0x3E :: y))) (w1 := w1) (w2 := w2)
      (quote := quote) (t := t4) (by simpa only [List.append_assoc] using p4) g3 g4 g5 g6 g7
    have hst : standalone = [] ∨ standalone = ascii "yes" := by
      rcases h4 with h | h | h
      · exact Or.inl h
      · exact Or.inr h
      · exact absurd h hs
    have rest : ∃ t6 tok t7, prologNext t5 = .ok (some (tok, t6)) ∧
        prologEncoding tok { version := version, present := true, standalone := true } t6 =
          .ok (some (Prolog.mk version encoding (!standalone.isEmpty) true true false, t7)) ∧
        Pos t7 (n + newlines [0x3C, 0x3F] + newlines [0x78, 0x6D, 0x6C] + newlines w0 + newlines (ascii "version") +
          newlines (w1 ++ ascii "=" ++ w2 ++ [quote] ++ version ++ [quote]) + newlines e + newlines (s ++ w ++ ascii "?>")) y := by
      rcases h2 with ⟨rfl, rfl⟩ | h2
      · obtain ⟨t6, tok, t7, f1, f2, f3, f4⟩ := standalone_read h3 h5 p5 hst
          (out := { version := version, present := true, standalone := true }) g6 rfl
        exact ⟨t6, tok, t7, f1, by rw [f2, f3]; rfl, f4⟩
      · obtain ⟨t6, tok, t7, v', f1, f2, f3, f4, f5, f6⟩ := setting_read h2 name_encoding p5
        obtain ⟨t8, tok', t9, i1, -, i3, i4⟩ := standalone_read h3 h5 f6 hst
          (out := { version := version, encoding := encoding, present := true, standalone := true }) g6 rfl
        refine ⟨t6, tok, t9, f1, ?_, i4⟩
        unfold prologEncoding
        rw [if_pos ⟨f2, by rw [f3]; decide⟩, f4]
        simp only [ok_bind]
        rw [i1]
        simp only [ok_bind]
        rw [f5, i3]
        rfl
    obtain ⟨t6, tok', t7, f1, f2, f3⟩ := rest
    refine ⟨t1, t7, e1, ?_, ?_⟩
    · unfold prologBody
      rw [if_neg (by rw [r1]; rw [show ([0x78, 0x6D, 0x6C] : List Byte).isPrefixOf _ = true from prefix_iff.mpr (List.prefix_append _ _)]; decide)]
      rw [show (3 : Nat) = ([0x78, 0x6D, 0x6C] : List Byte).length from rfl, e2]
      simp only [ok_bind]
      rw [hws]
      simp only [Bool.not_true, Bool.false_eq_true, if_false]
      rw [e3]
      simp only [ok_bind]
      rw [e4]
      simp only [ok_bind]
      rw [if_neg (by rw [k4]; exact (fun h => h rfl)), if_neg (by rw [c4]; exact (fun h => h (by decide))), e5]
      simp only [ok_bind]
      rw [f1]
      simp only [ok_bind]
      rw [c5, f2]
    · have : n + newlines [0x3C, 0x3F] + newlines [0x78, 0x6D, 0x6C] + newlines w0 + newlines (ascii "version") +
          newlines (w1 ++ ascii "=" ++ w2 ++ [quote] ++ version ++ [quote]) + newlines e + newlines (s ++ w ++ ascii "?>") =
          n + newlines (ascii "<?xml" ++ (w0 ++ ascii "version" ++ w1 ++ ascii "=" ++ w2 ++ [quote] ++ version ++ [quote]) ++ e ++ s ++ w ++ ascii "?>") := by
        rw [e0]; simp only [newlines_append]; omega
      rw [← this]; exact f3

/-- The bytes at which the loop over a document type stops. -/
def stops (b : Byte) : Bool := b != 0x0A && b != 0x3C && b != 0x3E

theorem doctypeLoop_skip {t : Tz} {b : Byte} {q : List Byte} (h : t.rest = b :: q) (hb : stops b = true) (hq : 0x3E ∈ q) (fuel d : Nat) :
    doctypeLoop (fuel + 1) d t = doctypeLoop (fuel + 1) d { rest := q, loc := { t.loc with offset := t.loc.offset + 1 } } := by
  have h1 : t.rest.dropWhile (fun b => b != 0x0A && b != 0x3C && b != 0x3E) = q.dropWhile (fun b => b != 0x0A && b != 0x3C && b != 0x3E) := by
    rw [h, List.dropWhile_cons, if_pos (show (b != 0x0A && b != 0x3C && b != 0x3E) = true from hb)]
  have h2 : ∃ c z, q.dropWhile (fun b => b != 0x0A && b != 0x3C && b != 0x3E) = c :: z ∧ stops c = false := by
    have : ∀ l : List Byte, 0x3E ∈ l → ∃ c z, l.dropWhile (fun b => b != 0x0A && b != 0x3C && b != 0x3E) = c :: z ∧ stops c = false := by
      intro l
      induction l with
      | nil => intro h; cases h
      | cons c l ih =>
        intro hm
        rw [List.dropWhile_cons]
        by_cases hc : stops c = true
        · rw [if_pos (show (c != 0x0A && c != 0x3C && c != 0x3E) = true from hc)]
          refine ih ((List.mem_cons.mp hm).resolve_left ?_)
          rintro rfl
          revert hc; decide
        · rw [if_neg (show ¬ (c != 0x0A && c != 0x3C && c != 0x3E) = true from hc)]
          exact ⟨c, l, rfl, by simpa using hc⟩
    exact this q hq
  obtain ⟨c, z, hz, hc⟩ := h2
  have hlen : z.length < q.length := by
    have := (List.dropWhile_sublist (fun b => b != 0x0A && b != 0x3C && b != 0x3E) (l := q)).length_le
    rw [hz] at this
    exact this
  unfold doctypeLoop
  dsimp only
  rw [h1, hz, h]
  have off : ∀ o : BitVec 32, o + 1 + BitVec.ofNat 32 (q.length - z.length) = o + BitVec.ofNat 32 ((b :: q).length - z.length) := by
    intro o
    rw [show (b :: q).length - z.length = 1 + (q.length - z.length) by simp only [List.length_cons]; omega, BitVec.ofNat_add, ← BitVec.add_assoc]
    rfl
  simp only [deref, List.headD_cons, List.tail_cons, off]
  have hcase : c = 0x0A ∨ c = 0x3C ∨ c = 0x3E := by
    unfold stops at hc
    simp only [Bool.and_eq_false_iff, bne_eq_false_iff_eq] at hc
    rcases hc with (h | h) | h
    · exact Or.inl h
    · exact Or.inr (Or.inl h)
    · exact Or.inr (Or.inr h)
  rcases hcase with rfl | rfl | rfl <;> simp

/-- The loop over a document type comes to the ">" behind balanced text. -/
theorem balanced_read {x : List Byte} (hx : Balanced x) : ∀ (fuel d : Nat) (t : Tz) (n : Nat) (z : List Byte), Pos t n (x ++ 0x3E :: z) →
    t.rest.length < fuel → 0 < d →
    ∃ t' fuel', doctypeLoop fuel d t = (if d - 1 = 0 then .ok t' else doctypeLoop fuel' (d - 1) t') ∧ Pos t' (n + newlines x) z ∧
      t'.rest.length < fuel' := by
  induction hx with
  | nil =>
    intro fuel d t n z h hf hd
    have hr : t.rest = 0x3E :: z := h.rest
    obtain ⟨fuel, rfl⟩ : ∃ m, fuel = m + 1 := ⟨fuel - 1, by omega⟩
    refine ⟨{ rest := z, loc := { t.loc with offset := t.loc.offset + BitVec.ofNat 32 (t.rest.length - z.length) } }, fuel, ?_, ⟨rfl, h.line⟩, ?_⟩
    · conv => lhs; unfold doctypeLoop
      dsimp only
      have e : t.rest.dropWhile (fun b => b != 0x0A && b != 0x3C && b != 0x3E) = 0x3E :: z := by
        rw [hr, List.dropWhile_cons, if_neg (by decide)]
      rw [e]
      simp only [deref, List.headD_cons, List.tail_cons]
      rw [if_neg (by decide), if_pos trivial]
    · rw [hr] at hf; simp only [List.length_cons] at hf ⊢; omega
  | char b s h1 h2 h3 hs ih =>
    intro fuel d t n z h hf hd
    have hr : t.rest = b :: (s ++ 0x3E :: z) := h.rest
    obtain ⟨fuel, rfl⟩ : ∃ m, fuel = m + 1 := ⟨fuel - 1, by omega⟩
    by_cases hb : b = 0x0A
    · subst hb
      have e : t.rest.dropWhile (fun b => b != 0x0A && b != 0x3C && b != 0x3E) = 0x0A :: (s ++ 0x3E :: z) := by
        rw [hr, List.dropWhile_cons, if_neg (by decide)]
      have step : ∃ t1, doctypeLoop (fuel + 1) d t = doctypeLoop fuel d t1 ∧ Pos t1 (n + 1) (s ++ 0x3E :: z) := by
        conv => arg 1; ext t1; lhs; lhs; unfold doctypeLoop
        dsimp only
        rw [e]
        simp only [deref, List.headD_cons, List.tail_cons]
        refine ⟨_, if_pos trivial, rfl, ?_⟩
        show t.loc.line + 1 = _
        rw [h.line, BitVec.ofNat_add]
        rfl
      obtain ⟨t1, e1, p1⟩ := step
      have hl : t1.rest.length < fuel := by
        rw [p1.rest]
        rw [hr] at hf
        simp only [List.length_cons] at hf ⊢
        omega
      obtain ⟨t2, f2, e2, p2, l2⟩ := ih fuel d t1 (n + 1) z p1 hl hd
      refine ⟨t2, f2, by rw [e1, e2], ?_, l2⟩
      have : n + newlines ((0x0A : Byte) :: s) = n + 1 + newlines s := by
        unfold newlines
        rw [List.count_cons_self]
        omega
      rw [this]; exact p2
    · have hstop : stops b = true := by
        unfold stops
        rw [bne_iff_ne.mpr hb, bne_iff_ne.mpr h1, bne_iff_ne.mpr h2]; rfl
      rw [doctypeLoop_skip hr hstop (by simp)]
      have p1 : Pos { rest := s ++ 0x3E :: z, loc := { t.loc with offset := t.loc.offset + 1 } } n (s ++ 0x3E :: z) := ⟨rfl, h.line⟩
      obtain ⟨t2, f2, e2, p2, l2⟩ := ih (fuel + 1) d _ n z p1 (by
        rw [hr] at hf
        simp only [List.length_cons] at hf ⊢
        omega) hd
      refine ⟨t2, f2, e2, ?_, l2⟩
      have : newlines (b :: s) = newlines s := by
        unfold newlines
        rw [List.count_cons_of_ne hb]
      rw [this]; exact p2
  | nested x s hx hs ihx ihs =>
    intro fuel d t n z h hf hd
    have hform : ascii "<" ++ x ++ ascii ">" ++ s ++ 0x3E :: z = 0x3C :: (x ++ 0x3E :: (s ++ 0x3E :: z)) := by
      rw [show ascii "<" = [0x3C] by decide, show ascii ">" = [0x3E] by decide]
      simp only [List.append_assoc, List.cons_append, List.nil_append]
    have hr : t.rest = 0x3C :: (x ++ 0x3E :: (s ++ 0x3E :: z)) := by rw [h.rest, hform]
    obtain ⟨fuel, rfl⟩ : ∃ m, fuel = m + 1 := ⟨fuel - 1, by omega⟩
    have e : t.rest.dropWhile (fun b => b != 0x0A && b != 0x3C && b != 0x3E) = 0x3C :: (x ++ 0x3E :: (s ++ 0x3E :: z)) := by
      rw [hr, List.dropWhile_cons, if_neg (by decide)]
    have step : ∃ t1, doctypeLoop (fuel + 1) d t = doctypeLoop fuel (d + 1) t1 ∧ Pos t1 n (x ++ 0x3E :: (s ++ 0x3E :: z)) := by
      conv => arg 1; ext t1; lhs; lhs; unfold doctypeLoop
      dsimp only
      rw [e]
      simp only [deref, List.headD_cons, List.tail_cons]
      rw [if_neg (by decide), if_neg (by decide)]
      exact ⟨_, if_pos trivial, rfl, h.line⟩
    obtain ⟨t1, e1, p1⟩ := step
    obtain ⟨t2, f2, e2, p2, l2⟩ := ihx fuel (d + 1) t1 n _ p1 (by
      rw [p1.rest]
      rw [hr] at hf
      simp only [List.length_cons] at hf ⊢
      omega) (by omega)
    rw [if_neg (by omega), Nat.add_sub_cancel] at e2
    obtain ⟨t3, f3, e3, p3, l3⟩ := ihs f2 d t2 _ z p2 l2 hd
    refine ⟨t3, f3, by rw [e1, e2, e3], ?_, l3⟩
    have : n + newlines (ascii "<" ++ x ++ ascii ">" ++ s) = n + newlines x + newlines s := by
      simp only [newlines_append, show newlines (ascii "<") = 0 by decide, show newlines (ascii ">") = 0 by decide]
      omega
    rw [this]; exact p3

/-- A comment in front of the root is skipped. -/
theorem scan_comment {t : Tz} {n : Nat} {w : List Byte} {ts : List Nat} {y : List Byte} (h : Pos t n (w ++ ascii "<!--" ++ encode utf8 ts ++ ascii "-->" ++ y)) (hw : Space w)
    (hn : ∀ p q, encode utf8 ts ++ ascii "-" ≠ p ++ ascii "--" ++ q) (rollback : Tz) (fuel : Nat) :
    ∃ t', doctypeScan rollback (fuel + 1) t = doctypeScan rollback fuel t' ∧
      Pos t' (n + newlines (w ++ ascii "<!--" ++ encode utf8 ts ++ ascii "-->")) y := by
  have hform : w ++ ascii "<!--" ++ encode utf8 ts ++ ascii "-->" ++ y = w ++ 0x3C :: (0x21 :: ([0x2D, 0x2D] ++ (encode utf8 ts ++ (ascii "-->" ++ y)))) := by
    rw [show ascii "<!--" = 0x3C :: 0x21 :: [0x2D, 0x2D] by decide]; simp only [List.append_assoc, List.cons_append]
  have hr := h.rest
  rw [hform] at hr
  obtain ⟨t1, e1, r1, a1⟩ := hw.skip hr (by decide) (by decide)
  obtain ⟨t2, e2, r2, a2⟩ := advance_eq (t := t1) (p := [0x3C, 0x21]) (s := [0x2D, 0x2D] ++ (encode utf8 ts ++ (ascii "-->" ++ y))) r1 (by decide)
  obtain ⟨t3, e3, r3, a3⟩ := advance_eq r2 (by decide)
  obtain ⟨t4, tok, e4, r4, a4, k4, c4, l4⟩ := comment_parse hn r3
  refine ⟨t4, ?_, h.adv (((a1.trans a2).trans a3).trans a4) r4⟩
  conv => lhs; unfold doctypeScan
  rw [e1]
  dsimp only
  rw [if_neg (by rw [r1]; exact (fun h => h rfl))]
  have hat : at' t1.rest 1 = .ok 0x21 := by rw [r1]; rfl
  rw [hat]
  dsimp only
  rw [if_neg (fun h => h rfl), show (2 : Nat) = ([0x3C, 0x21] : List Byte).length from rfl, e2]
  dsimp only
  rw [if_pos (by rw [r2, prefix_iff]; exact List.prefix_append _ _)]
  have e3' : advance t2 ([0x3C, 0x21] : List Byte).length = .ok t3 := e3
  rw [e3']
  dsimp only
  rw [e4]
  dsimp only
  rw [if_neg (by rw [k4]; decide)]

/-- Without a document type, the prolog ends where the search for it began. -/
theorem scan_none {all : Prop} {n : Nat} {m : List Byte} {ms : List Tok} (h : Around all n m ms) : ∀ (rollback t : Tz) (fuel : Nat) (c : Byte) (y : List Byte),
    Pos t n (m ++ 0x3C :: c :: y) → c ≠ 0x21 → m.length < fuel → doctypeScan rollback fuel t = .ok (true, some (rollback, false)) := by
  have fin : ∀ (rollback t : Tz) (fuel : Nat) (c : Byte) (w y : List Byte), Space w → t.rest = w ++ 0x3C :: c :: y → c ≠ 0x21 → 0 < fuel →
      doctypeScan rollback fuel t = .ok (true, some (rollback, false)) := by
    intro rollback t fuel c w y hw hr hc hf
    obtain ⟨fuel, rfl⟩ : ∃ m, fuel = m + 1 := ⟨fuel - 1, by omega⟩
    obtain ⟨t1, e1, r1, a1⟩ := hw.skip hr (by decide) (by decide)
    unfold doctypeScan
    rw [e1]
    dsimp only
    rw [if_neg (by rw [r1]; exact (fun h => h rfl))]
    have hat : at' t1.rest 1 = .ok c := by rw [r1]; rfl
    rw [hat]
    dsimp only
    rw [if_pos hc]
  induction h with
  | space n w hw =>
    intro rollback t fuel c y h hc hf
    exact fin rollback t fuel c w y hw h.rest hc (by omega)
  | item n w m k s ts hw hm hs ih =>
    intro rollback t fuel c y h hc hf
    obtain ⟨fuel, rfl⟩ : ∃ m, fuel = m + 1 := ⟨fuel - 1, by omega⟩
    cases hm with
    | comment ts hx hn hall =>
      obtain ⟨t1, e1, p1⟩ := scan_comment (y := s ++ 0x3C :: c :: y) (ts := ts) (by
        have := h
        simp only [List.append_assoc] at this ⊢
        exact this) hw hn rollback fuel
      rw [e1]
      refine ih rollback t1 fuel c y ?_ hc ?_
      · have : w ++ (ascii "<!--" ++ encode utf8 ts ++ ascii "-->") = w ++ ascii "<!--" ++ encode utf8 ts ++ ascii "-->" := by
          simp only [List.append_assoc]
        rw [this]; exact p1
      · have : ascii "<!--" = [0x3C, 0x21, 0x2D, 0x2D] := by decide
        rw [this] at hf
        simp only [List.length_append, List.length_cons] at hf
        omega
    | instructions target t' hname hnx hx ht' hn hall =>
      refine fin rollback t (fuel + 1) 0x3F w (encode utf8 (target ++ t') ++ (ascii "?>" ++ (s ++ 0x3C :: c :: y))) hw ?_ (by decide) (by omega)
      rw [h.rest, show ascii "<?" = [0x3C, 0x3F] by decide]
      simp only [List.append_assoc, List.cons_append, List.nil_append]

/-- A document type is skipped. -/
theorem scan_doctype {m : List Byte} (h : Comments m) : ∀ (rollback t : Tz) (fuel n : Nat) (x y : List Byte), Balanced x →
    Pos t n (m ++ (ascii "<!DOCTYPE" ++ (x ++ 0x3E :: y))) → m.length < fuel →
    ∃ t', doctypeScan rollback fuel t = .ok (true, some (t', true)) ∧ Pos t' (n + newlines m + newlines x) y := by
  induction h with
  | space w hw =>
    intro rollback t fuel n x y hx h hf
    obtain ⟨fuel, rfl⟩ : ∃ m, fuel = m + 1 := ⟨fuel - 1, by omega⟩
    have hform : w ++ (ascii "<!DOCTYPE" ++ (x ++ 0x3E :: y)) =
        w ++ 0x3C :: (0x21 :: ([0x44, 0x4F, 0x43, 0x54, 0x59, 0x50, 0x45] ++ (x ++ 0x3E :: y))) := by
      rw [show ascii "<!DOCTYPE" = 0x3C :: 0x21 :: [0x44, 0x4F, 0x43, 0x54, 0x59, 0x50, 0x45] by decide]
      simp only [List.cons_append]
    rw [hform] at h
    obtain ⟨t1, e1, r1, a1⟩ := hw.skip h.rest (by decide) (by decide)
    obtain ⟨t2, e2, r2, a2⟩ := advance_eq (t := t1) (p := [0x3C, 0x21])
      (s := [0x44, 0x4F, 0x43, 0x54, 0x59, 0x50, 0x45] ++ (x ++ 0x3E :: y)) r1 (by decide)
    obtain ⟨t3, e3, r3, a3⟩ := advance_eq r2 (by decide)
    have p1 := h.adv a1 r1
    have p2 : Pos t2 (n + newlines w + newlines [0x3C, 0x21]) ([0x44, 0x4F, 0x43, 0x54, 0x59, 0x50, 0x45] ++ (x ++ 0x3E :: y)) := Pos.adv (p := [0x3C, 0x21]) p1 a2 r2
    have p3 := p2.adv a3 r3
    obtain ⟨t4, f4, e4, p4, -⟩ := balanced_read hx (t3.rest.length + 1) 1 t3 _ y p3 (by omega) (by omega)
    rw [if_pos rfl] at e4
    refine ⟨t4, ?_, p4⟩
    conv => lhs; unfold doctypeScan
    rw [e1]
    dsimp only
    rw [if_neg (by rw [r1]; exact (fun h => h rfl))]
    have hat : at' t1.rest 1 = .ok 0x21 := by rw [r1]; rfl
    rw [hat]
    dsimp only
    rw [if_neg (fun h => h rfl), show (2 : Nat) = ([0x3C, 0x21] : List Byte).length from rfl, e2]
    dsimp only
    rw [if_neg (by rw [r2]; simp [List.isPrefixOf]), if_pos (by rw [r2, prefix_iff]; exact List.prefix_append _ _)]
    rw [show (7 : Nat) = ([0x44, 0x4F, 0x43, 0x54, 0x59, 0x50, 0x45] : List Byte).length from rfl, e3]
    dsimp only
    rw [e4]
  | comment w ts s hw hx hn hs ih =>
    intro rollback t fuel n x y hb h hf
    obtain ⟨fuel, rfl⟩ : ∃ m, fuel = m + 1 := ⟨fuel - 1, by omega⟩
    obtain ⟨t1, e1, p1⟩ := scan_comment (y := s ++ (ascii "<!DOCTYPE" ++ (x ++ 0x3E :: y))) (ts := ts) (by
      have := h
      simp only [List.append_assoc] at this ⊢
      exact this) hw hn rollback fuel
    obtain ⟨t2, e2, p2⟩ := ih rollback t1 fuel _ x y hb p1 (by
      have : ascii "<!--" = [0x3C, 0x21, 0x2D, 0x2D] := by decide
      rw [this] at hf
      simp only [List.length_append, List.length_cons] at hf
      omega)
    refine ⟨t2, by rw [e1, e2], ?_⟩
    rw [newlines_append _ s, ← Nat.add_assoc]
    exact p2

end Tm.Xml
