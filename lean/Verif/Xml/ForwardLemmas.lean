import Verif.Xml.FaultLemmas
import Verif.Xml.DocSpec

/-!
What the lexer does on the parts of a well-formed document.
-/

namespace Tm.Xml

open Tm.Uni (utf8 encode)

theorem newlines_append (a b : List Byte) : newlines (a ++ b) = newlines a + newlines b := List.count_append

/-- The line after moving forward. -/
theorem Adv.line {t t' : Tz} (h : Adv t t') {n : Nat} (hn : t.loc.line = BitVec.ofNat 32 n) {p : List Byte} (hp : t.rest = p ++ t'.rest) :
    t'.loc.line = BitVec.ofNat 32 (n + newlines p) := by
  obtain ⟨q, h1, h2⟩ := h
  have : q = p := List.append_cancel_right (h1.symm.trans hp)
  subst this
  rw [h2, hn, newlines, ← BitVec.ofNat_add]

theorem utf8_bytes {c : Nat} {b : Byte} (hc : c ≤ 0x10FFFF) (h : b ∈ utf8 c) : (c < 0x80 ∧ b.toNat = c) ∨ 0x80 ≤ b.toNat := by
  unfold utf8 at h
  have key : ∀ x, 0x80 ≤ x → x < 256 → 0x80 ≤ (BitVec.ofNat 8 x).toNat := fun x h1 h2 => by
    rw [BitVec.toNat_ofNat]; omega
  split at h
  · rename_i h1
    rw [List.mem_singleton.mp h]
    exact .inl ⟨h1, by rw [BitVec.toNat_ofNat]; omega⟩
  · split at h
    · simp only [List.mem_cons, List.not_mem_nil, or_false] at h
      rcases h with rfl | rfl <;> exact .inr (key _ (by omega) (by omega))
    · split at h
      · simp only [List.mem_cons, List.not_mem_nil, or_false] at h
        rcases h with rfl | rfl | rfl <;> exact .inr (key _ (by omega) (by omega))
      · simp only [List.mem_cons, List.not_mem_nil, or_false] at h
        rcases h with rfl | rfl | rfl | rfl <;> exact .inr (key _ (by omega) (by omega))

theorem NameChar.le {c : Nat} (h : NameChar c) : c ≤ 0x10FFFF := by
  unfold NameChar NameStart at h; omega

theorem NameChar.scalar {c : Nat} (h : NameChar c) : Tm.Uni.Scalar c := by
  unfold NameChar NameStart at h; unfold Tm.Uni.Scalar; omega

theorem nameStart_iff {c : Nat} : nameStart c = true ↔ NameStart c := by
  unfold nameStart NameStart
  simp only [Bool.or_eq_true, Bool.and_eq_true, decide_eq_true_eq, or_assoc]

theorem nameChar_iff {c : Nat} : nameChar c = true ↔ NameChar c := by
  unfold nameChar NameChar
  simp only [Bool.or_eq_true, Bool.and_eq_true, decide_eq_true_eq, nameStart_iff]
  constructor
  · rintro ((((((h | h) | h) | h) | h) | h) | h) <;> simp [h]
  · rintro (h | h | h | h | h | h | h) <;> simp [h]

/-- A byte of a name is none of those at which the lexer ends a name. -/
theorem Name.bytes {s : List Byte} (h : Name s) : ∀ b ∈ s, nameEnd b = false ∧ isSpace b = false ∧ b ≠ 0x3E ∧ b ≠ 0x2F ∧ b ≠ 0x21 ∧ b ≠ 0 := by
  obtain ⟨c, cs, hc, hcs⟩ := h
  have key : ∀ d, NameChar d → ∀ b ∈ utf8 d, nameEnd b = false ∧ isSpace b = false ∧ b ≠ 0x3E ∧ b ≠ 0x2F ∧ b ≠ 0x21 ∧ b ≠ 0 := by
    intro d hd b hb
    have big : ∀ x : Byte, b = x → x.toNat = d ∨ 0x80 ≤ x.toNat := by
      rintro x rfl
      rcases utf8_bytes hd.le hb with ⟨_, h⟩ | h
      · exact .inl h
      · exact .inr h
    unfold NameChar NameStart at hd
    have no : ∀ x : Byte, x.toNat < 0x80 → ¬ NameChar x.toNat → b ≠ x := by
      intro x hx hn e
      rcases big x e with h | h
      · exact hn (by rw [h]; unfold NameChar NameStart; exact hd)
      · omega
    refine ⟨?_, ?_, no _ (by decide) (by decide), no _ (by decide) (by decide), no _ (by decide) (by decide), no _ (by decide) (by decide)⟩
    · unfold nameEnd
      simp only [Bool.or_eq_false_iff, decide_eq_false_iff_not]
      refine ⟨⟨⟨⟨⟨⟨⟨?_, ?_⟩, ?_⟩, ?_⟩, ?_⟩, ?_⟩, ?_⟩, ?_⟩ <;> exact no _ (by decide) (by decide)
    · unfold isSpace
      simp only [Bool.or_eq_false_iff, decide_eq_false_iff_not]
      refine ⟨⟨⟨?_, ?_⟩, ?_⟩, ?_⟩ <;> exact no _ (by decide) (by decide)
  intro b hb
  rw [encode, List.mem_flatMap] at hb
  obtain ⟨d, hd, hb⟩ := hb
  refine key d ?_ b hb
  rcases List.mem_cons.mp hd with rfl | hd
  · exact .inl hc
  · exact hcs d hd

theorem Name.ne_nil {s : List Byte} (h : Name s) : s ≠ [] := by
  obtain ⟨c, cs, hc, hcs⟩ := h
  show utf8 c ++ _ ≠ []
  have := utf8_ne_nil c
  simp [this]

theorem Name.valid {s : List Byte} (h : Name s) : validName s = .ok true := by
  obtain ⟨c, cs, hc, hcs⟩ := h
  unfold validName
  rw [show encode utf8 (c :: cs) = utf8 c ++ encode utf8 cs from rfl, extract_utf8 (NameChar.scalar (.inl hc))]
  dsimp only
  rw [if_pos (nameStart_iff.mpr hc)]
  have : ∀ (cs : List Nat), (∀ d ∈ cs, NameChar d) → ∀ fuel, (encode utf8 cs).length < fuel → nameLoop fuel (encode utf8 cs) = .ok true := by
    intro cs
    induction cs with
    | nil =>
      intro _ fuel hf
      cases fuel with
      | zero => omega
      | succ fuel => unfold nameLoop; rw [show encode utf8 ([] : List Nat) = [] from rfl, extract_nil]; rfl
    | cons d cs ih =>
      intro hd fuel hf
      rw [show encode utf8 (d :: cs) = utf8 d ++ encode utf8 cs from rfl] at hf ⊢
      cases fuel with
      | zero => omega
      | succ fuel =>
        unfold nameLoop
        have hd' := hd d (List.mem_cons_self ..)
        rw [extract_utf8 hd'.scalar]
        dsimp only
        rw [if_pos (nameChar_iff.mpr hd')]
        refine ih (fun x hx => hd x (List.mem_cons_of_mem _ hx)) fuel ?_
        have := List.length_pos_iff.mpr (utf8_ne_nil d)
        rw [List.length_append] at hf
        omega
  refine this cs hcs _ ?_
  rw [List.length_append]; omega

theorem take_append {p : Byte → Bool} {a : List Byte} {b : Byte} {s : List Byte} (ha : ∀ x ∈ a, p x = true) (hb : p b = false) :
    (a ++ b :: s).takeWhile p = a ∧ (a ++ b :: s).dropWhile p = b :: s := by
  induction a with
  | nil => simp [hb]
  | cons x a ih =>
    have hx := ha x (List.mem_cons_self ..)
    obtain ⟨h1, h2⟩ := ih fun y hy => ha y (List.mem_cons_of_mem _ hy)
    simp [hx, h1, h2]

theorem Space.bytes {w : List Byte} (h : Space w) : ∀ b ∈ w, isSpace b = true := by
  intro b hb
  unfold isSpace
  rcases h b hb with rfl | rfl | rfl | rfl <;> decide

/-- Reading a name. -/
theorem Name.parse {name : List Byte} (h : Name name) {t : Tz} {b : Byte} {y : List Byte} (ht : t.rest = name ++ b :: y)
    (hb : nameEnd b = true) :
    ∃ t' tok, parseName t = .ok (tok, t') ∧ t'.rest = b :: y ∧ Adv t t' ∧ tok.kind = .tagOpen ∧ tok.contents.text = name ∧
      tok.loc.line = t.loc.line := by
  obtain ⟨t', tok, h1, h2, h3, h4, h5, h6, _, h7⟩ := parseName_eq t
  obtain ⟨e1, e2⟩ := take_append (p := fun b => !nameEnd b) (a := name) (b := b) (s := y)
    (fun x hx => by rw [(h.bytes x hx).1]; rfl) (by rw [hb]; rfl)
  rw [ht, e2] at h2
  refine ⟨t', tok, h1, h2, h3, ?_, ?_, h6⟩
  · rw [ht, e1, e2] at h7
    refine h7 false ?_ h.valid rfl
    split
    · unfold reserved
      rw [if_neg]
      intro hx
      simp only [Bool.or_eq_true, decide_eq_true_eq] at hx
      rcases hx with hx | hx <;> (rw [show b = _ from hx] at hb; revert hb; decide)
    · rfl
  · rw [h5]
    dsimp only
    rw [ht, e1]

/-- Skipping whitespace. -/
theorem Space.skip {w : List Byte} (h : Space w) {t : Tz} {b : Byte} {y : List Byte} (ht : t.rest = w ++ b :: y) (hb : isSpace b = false)
    (h0 : b ≠ 0) : ∃ t', skipWs t = .ok (t', true) ∧ t'.rest = b :: y ∧ Adv t t' := by
  obtain ⟨t', h1, h2, h3⟩ := skipWs_eq t
  obtain ⟨_, e2⟩ := take_append (p := isSpace) (a := w) (b := b) (s := y) h.bytes hb
  rw [ht, e2] at h2
  refine ⟨t', ?_, h2, h3⟩
  rw [h1, h2]
  show Except.ok (t', b != 0) = _
  rw [bne_iff_ne.mpr h0]

/-- A text is found at its first occurrence. -/
theorem strstr_first {pat s y : List Byte} (hp : pat ≠ []) (h : ∀ p q, s ++ pat.dropLast ≠ p ++ pat ++ q) :
    strstr pat (s ++ (pat ++ y)) = some (pat ++ y) := by
  induction s with
  | nil =>
    rw [List.nil_append]
    cases pat with
    | nil => exact absurd rfl hp
    | cons b pat =>
      rw [List.cons_append]
      unfold strstr
      rw [if_pos (by rw [List.isPrefixOf_iff_prefix, ← List.cons_append]; exact List.prefix_append _ _)]
  | cons b s ih =>
    rw [List.cons_append]
    unfold strstr
    rw [if_neg]
    · refine ih fun p q e => h (b :: p) q ?_
      rw [List.cons_append, e]; rfl
    · rw [List.isPrefixOf_iff_prefix]
      intro hpre
      have hl : pat.length ≤ (b :: s ++ pat.dropLast).length := by
        rw [List.length_append, List.length_cons, List.length_dropLast]
        omega
      have h2 : b :: s ++ pat.dropLast <+: b :: (s ++ (pat ++ y)) := by
        obtain ⟨x, hx⟩ := List.dropLast_prefix pat
        exact ⟨x ++ y, by rw [List.append_assoc, ← List.append_assoc pat.dropLast, hx]; rfl⟩
      obtain ⟨q, hq⟩ := List.prefix_of_prefix_length_le hpre h2 hl
      exact h [] q (by rw [List.nil_append, hq])

theorem XmlText.scalars {t : List Nat} (h : XmlText t) : ∀ c ∈ t, Tm.Uni.Scalar c := fun c hc => (h c hc).scalar

/-- Plain text is valid, unless it contains "]]>". -/
theorem XmlText.valid {t : List Nat} (h : XmlText t) (hn : ∀ p q, encode utf8 t ≠ p ++ ascii "]]>" ++ q) (y : List Byte) :
    validString ⟨encode utf8 t, y⟩ = .ok true := by
  unfold validString
  dsimp only
  have : ∀ (t : List Nat), XmlText t → (∀ p q, encode utf8 t ≠ p ++ ascii "]]>" ++ q) → ∀ fuel, (encode utf8 t).length < fuel →
      validLoop fuel (encode utf8 t) = .ok true := by
    intro t
    induction t with
    | nil =>
      intro _ _ fuel hf
      cases fuel with
      | zero => omega
      | succ fuel => unfold validLoop; rw [show encode utf8 ([] : List Nat) = [] from rfl, extract_nil]; rfl
    | cons c t ih =>
      intro hx hn fuel hf
      rw [show encode utf8 (c :: t) = utf8 c ++ encode utf8 t from rfl] at hf hn ⊢
      have hc := hx c (List.mem_cons_self ..)
      cases fuel with
      | zero => omega
      | succ fuel =>
        unfold validLoop
        rw [extract_utf8 hc.scalar]
        dsimp only
        have rec_ : validLoop fuel (encode utf8 t) = .ok true := by
          refine ih (fun x h => hx x (List.mem_cons_of_mem _ h)) (fun p q e => hn (utf8 c ++ p) q (by rw [e]; simp)) fuel ?_
          have := List.length_pos_iff.mpr (utf8_ne_nil c)
          rw [List.length_append] at hf
          omega
        rw [if_neg (by unfold XmlChar at hc; omega)]
        split
        · rename_i h5
          rw [if_neg]
          · exact rec_
          · intro hp
            obtain ⟨q, hq⟩ := prefix_iff.mp hp
            apply hn [] q
            rw [h5, ← hq]
            rw [ascii_end]; rfl
        · rw [if_pos (validXml_iff.mpr hc)]
          exact rec_
  exact this t h hn _ (Nat.lt_succ_self _)

/-- Plain text of a comment. -/
theorem XmlText.runs {f : Flags} (hf : f.Verbatim) (hc : f.comment = true) (after : List Byte) {t : List Nat} (h : XmlText t)
    (ha : 0x26 ∉ t) (last : Bool) : Runs (unescStep f after) (start (encode utf8 t) last) .done (t.map utf8) := by
  induction t with
  | nil => exact Runs.stop (start [] last) extract_nil
  | cons c t ih =>
    have hx := h c (List.mem_cons_self ..)
    have h26 : c ≠ 0x26 := fun e => ha (by rw [e]; exact List.mem_cons_self ..)
    refine Runs.step (start _ last) c (encode utf8 t) (start (encode utf8 t) last) (utf8 c) .done (t.map utf8) ?_ ?_
      (ih (fun d hd => h d (List.mem_cons_of_mem _ hd)) fun e => ha (List.mem_cons_of_mem _ e))
    · exact extract_utf8 hx.scalar _
    · intro u hu
      have h1 : u.cur = encode utf8 t := core_cur hu
      have h2 : u.prev = utf8 c ++ encode utf8 t := core_prev hu
      have h3 : u.last = last := core_last hu
      have fin : ∀ bs, next (emit u bs) = (emit u bs).put (start (encode utf8 t) last) := fun bs => by
        rw [next_emit]; unfold start Unesc.core; simp only [h1, h3]
      unfold unescStep
      rw [if_neg (by unfold XmlChar at hx; omega), if_neg h26]
      split
      · rename_i e
        rw [hc, fin, e]; rfl
      · split
        · rename_i e
          rw [hc, fin, e]; rfl
        · unfold plain
          rw [if_pos (validXml_iff.mpr hx), place_verbatim hf, h1, h2]
          simp only [List.length_append, Nat.add_sub_cancel, List.take_left]
          have := fin (utf8 c); rw [next_emit, h1] at this; rw [this]; rfl

/-- The pieces of a modest text, unescaped by the reader. -/
theorem processCurrent_runs {f : Flags} {v : View} {t : List Nat} (hf : f.Verbatim) (hne : v.text ≠ [])
    (hl : t.length ≤ v.text.length)
    (h : Runs (unescStep f v.after) (start v.text false) .done (t.map utf8)) (hm : Modest t) {r : Reader} (hr : 64 ≤ r.room) :
    ∃ r', processCurrent rich (unescape f v) r = .ok (true, r') ∧ r'.current.contents.text = encode utf8 t := by
  have hu : unescape f v = unescapeTrimmed f v := by
    funext n
    unfold unescape
    rw [trim_none hf.1 hf.2.1]
    dsimp only
    rw [if_neg (by simpa using hne)]
  have hflat : (t.map utf8).flatten = encode utf8 t := by rw [encode, List.flatMap_def]
  rcases hm with hm | hm
  · have hfit := h.fits (by rw [List.length_map]; exact hl) r.room (by rw [hflat]; omega)
    unfold processCurrent
    rw [hu]
    unfold unescapeTrimmed
    rw [show unescLoop (unescStep f v.after) (v.text.length + 1) { cur := v.text, prev := v.text, last := false, out := [], room := r.room, size := 0 } = _ from hfit]
    simp only [Bool.not_true, Bool.false_eq_true, if_false]
    rw [if_pos (by rw [hflat]; omega)]
    exact ⟨_, rfl, by dsimp only; rw [List.take_left' rfl, hflat]⟩
  · have hp : Polite (unescape f v) (some (encode utf8 t)) := by
      intro n hn
      have L := fun room => h.loop (v.text.length + 1) (by rw [List.length_map]; omega) (Unesc.mk v.text v.text false [] room 0) rfl
      rw [hu]
      unfold unescapeTrimmed
      rw [show unescLoop (unescStep f v.after) (v.text.length + 1) { cur := v.text, prev := v.text, last := false, out := [], room := n, size := 0 } = _ from L n]
      have h3 : ∀ p ∈ t.map utf8, p.length ≤ 1 := by
        intro p hp
        obtain ⟨c, hc, rfl⟩ := List.mem_map.mp hp
        rw [utf8_ascii (hm c hc)]; simp
      unfold conclude
      dsimp only
      rw [emits_size, emits_single _ h3, hflat]
      dsimp only
      by_cases hr : (encode utf8 t).length < n
      · rw [if_pos hr, if_pos (by omega)]
        refine ⟨_, by simp; rfl, fun _ => ?_⟩
        obtain ⟨h4, _⟩ := emits_fit (t.map utf8) (Unesc.mk v.text v.text false [] n 0) (by rw [hflat]; show _ ≤ n; omega)
        rw [h4, hflat]
        simp
      · rw [if_neg hr, if_neg (by omega)]
        exact ⟨_, by simp; rfl, fun h => absurd h hr⟩
    obtain ⟨b, r', h1, h2⟩ := processCurrent_ok (alloc := rich) hp (r := r) (by omega)
    obtain ⟨h3, h4⟩ := h2 _ rfl fun _ => rfl
    subst h3
    exact ⟨r', h1, h4⟩

theorem encode_length (t : List Nat) : t.length ≤ (encode utf8 t).length := by
  induction t with
  | nil => simp
  | cons c t ih =>
    have := List.length_pos_iff.mpr (utf8_ne_nil c)
    rw [show encode utf8 (c :: t) = utf8 c ++ encode utf8 t from rfl, List.length_append, List.length_cons]; omega

theorem trim_verbatim {f : Flags} (hf : f.Verbatim) (v : View) : trim f v = v := by
  unfold trim; simp [hf.1, hf.2.1]

/-- Unescaping the current token when no trimming is asked for. -/
theorem unescapeCurrent_text {r : Reader} {x : List Byte} {t : List Nat} (hf : r.flags.Verbatim) (hx : r.current.contents.text = x)
    (hk : r.current.kind ≠ .comment) (hd : Denotes x t) (hm : Modest t) (hr : 64 ≤ r.room) :
    ∃ r', unescapeCurrent rich r = .ok (true, r') ∧ r'.current.contents.text = encode utf8 t := by
  unfold unescapeCurrent
  dsimp only
  have hf' : (if (decide (r.current.kind = .attrValue) && !r.flags.attr) = true then r.flags.noTrim else r.flags).Verbatim := by
    split
    · exact ⟨rfl, rfl, rfl, rfl⟩
    · exact hf
  revert hf'
  generalize (if (decide (r.current.kind = .attrValue) && !r.flags.attr) = true then r.flags.noTrim else r.flags) = fl
  intro hf'
  rw [trim_verbatim hf', if_neg hk]
  by_cases he : x = []
  · rw [if_pos (by rw [hx]; simpa using he)]
    subst he
    have : t = [] := List.length_eq_zero_iff.mp (by simpa using hd.length_le)
    subst this
    exact ⟨_, rfl, hx⟩
  · rw [if_neg (by rw [hx]; simpa using he)]
    exact processCurrent_runs hf' (by rw [hx]; exact he) (by rw [hx]; exact hd.length_le) (by rw [hx]; exact hd.runs hf' _ _) hm hr

/-- The same for a comment. -/
theorem unescapeCurrent_comment {r : Reader} {t : List Nat} (hf : r.flags.Verbatim) (hx : r.current.contents.text = encode utf8 t)
    (hk : r.current.kind = .comment) (ht : XmlText t) (ha : 0x26 ∉ t) (hm : Modest t) (hr : 64 ≤ r.room) :
    ∃ r', unescapeCurrent rich r = .ok (true, r') ∧ r'.current.contents.text = encode utf8 t := by
  unfold unescapeCurrent
  dsimp only
  rw [if_neg (show ¬ (decide (r.current.kind = .attrValue) && !r.flags.attr) = true by rw [hk]; simp), trim_verbatim hf, if_pos hk]
  by_cases he : encode utf8 t = []
  · rw [if_pos (by rw [hx, he]; rfl)]
    exact ⟨_, rfl, hx⟩
  · rw [if_neg (by rw [hx]; simpa using he)]
    have hf' : Flags.Verbatim { r.flags with comment := true } := hf
    exact processCurrent_runs hf' (by rw [hx]; exact he) (by rw [hx]; exact encode_length t)
      (by rw [hx]; exact ht.runs hf' rfl _ ha _) hm hr

end Tm.Xml
