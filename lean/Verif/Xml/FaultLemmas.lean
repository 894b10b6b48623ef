import Verif.Xml.NarrowLemmas
import Verif.Xml.MoveLemmas

/-!
Reading does not fail an assertion as long as every piece of output has one byte.
-/

namespace Tm.Xml

open Tm.Uni (utf8 encode)

/-- A function with a buffer that rejects its input, or gives a text and reports its size, or the size that is needed. -/
def Polite (process : Nat → C Result) : Option (List Byte) → Prop
  | none => ∀ n, 0 < n → ∃ r, process n = .ok r ∧ r.ok = false
  | some text => ∀ n, 0 < n → ∃ out, process n =
      .ok { ok := true, written := if text.length < n then text.length else text.length + 1, out := out } ∧
      (text.length < n → out.take text.length = text)

theorem polite_loop {f : Flags} {step : Unesc → Nat → C (Option Unesc)}
    (hs : ∀ (b : Byte) (s : List Byte) (last : Bool), Narrow f (b :: s) → Small ⟨s, b :: s, last⟩ fun u => step u b.toNat)
    (s : List Byte) (hn : Narrow f s) :
    ∃ o, Polite (fun room => unescLoop step (s.length + 1) { cur := s, prev := s, last := false, out := [], room := room, size := 0 }) o := by
  obtain ⟨o, ps, h1, h2, h3⟩ := runs_small hs _ s false (Nat.le_refl _) hn
  have L := fun room => h1.loop (s.length + 1) (by omega) (Unesc.mk s s false [] room 0) rfl
  cases o with
  | failed => exact ⟨none, fun n _ => ⟨_, L n, rfl⟩⟩
  | stopped =>
    refine ⟨none, fun n _ => ⟨_, L n, ?_⟩⟩
    unfold conclude
    dsimp only
    split <;> rfl
  | done =>
    refine ⟨some ps.flatten, fun n _ => ?_⟩
    dsimp only
    rw [L n]
    unfold conclude
    dsimp only
    rw [emits_size, emits_single ps h3]
    dsimp only
    by_cases hr : ps.flatten.length < n
    · rw [if_pos hr, if_pos (by omega)]
      refine ⟨_, by simp; rfl, fun _ => ?_⟩
      obtain ⟨h4, _⟩ := emits_fit ps (Unesc.mk s s false [] n 0) (by show _ ≤ n; omega)
      rw [h4]
      simp
    · rw [if_neg hr, if_neg (by omega)]
      exact ⟨_, by simp; rfl, fun h => absurd h hr⟩

theorem Narrow.middle {f : Flags} {s p q r : List Byte} (h : Narrow f s) (e : s = p ++ (q ++ r)) : Narrow f q where
  ascii b hb := h.ascii b (by rw [e]; simp [hb])
  noRef a c ha := h.noRef (p ++ a) (c ++ r) (by rw [e, ha]; simp)
  noCr := h.noCr.imp id fun h => h.imp id fun h hm => h (by rw [e]; exact List.mem_append_right _ (List.mem_append_left _ hm))

theorem Narrow.noTrim {f : Flags} {s : List Byte} (h : Narrow f s) : Narrow f.noTrim s := ⟨h.ascii, h.noRef, .inr (.inl rfl)⟩

theorem Narrow.comment {f : Flags} {s : List Byte} (h : Narrow f s) : Narrow { f with comment := true } s :=
  ⟨h.ascii, h.noRef, h.noCr⟩

theorem trim_infix (f : Flags) (v : View) : ∃ p q, v.text = p ++ ((trim f v).text ++ q) := by
  have hl : ∀ w : View, ∃ p, w.text = p ++ (trimLeft w).text := fun w =>
    ⟨w.text.takeWhile isSpace, by unfold trimLeft; simp⟩
  have hr : ∀ w : View, ∃ q, w.text = (trimRight w).text ++ q := fun w =>
    ⟨(w.text.reverse.takeWhile isSpace).reverse, by
      unfold trimRight
      dsimp only
      rw [← List.reverse_append, List.takeWhile_append_dropWhile, List.reverse_reverse]⟩
  unfold trim
  dsimp only
  cases f.left <;> cases f.right <;> simp only [if_true, Bool.false_eq_true, if_false]
  · exact ⟨[], [], by simp⟩
  · obtain ⟨q, hq⟩ := hr v; exact ⟨[], q, by simpa using hq⟩
  · obtain ⟨p, hp⟩ := hl v; exact ⟨p, [], by simpa using hp⟩
  · obtain ⟨p, hp⟩ := hl v
    obtain ⟨q, hq⟩ := hr (trimLeft v)
    exact ⟨p, q, by rw [← hq, ← hp]⟩

theorem Narrow.trim {f g : Flags} {v : View} (h : Narrow f v.text) : Narrow f (Tm.Xml.trim g v).text := by
  obtain ⟨p, q, e⟩ := trim_infix g v
  exact h.middle e

theorem unescape_polite {f : Flags} {v : View} (h : Narrow f v.text) : ∃ o, Polite (unescape f v) o := by
  unfold unescape
  dsimp only
  split
  · exact ⟨some [], fun n hn => ⟨[], by simp [hn], fun _ => rfl⟩⟩
  · exact polite_loop (fun b s last h => unescStep_small h) _ h.trim

theorem reduceCdata_polite {f : Flags} {v : View} (h : Narrow f v.text) : ∃ o, Polite (reduceCdata f v) o :=
  polite_loop (fun b s last h => cdataStep_small h) _ h

theorem processCurrent_ok {alloc : Nat → Bool} {process : Nat → C Result} {o : Option (List Byte)} (hp : Polite process o)
    {r : Reader} (hr : 0 < r.room) :
    ∃ b r', processCurrent alloc process r = .ok (b, r') ∧
      ∀ text, o = some text → (∀ n, alloc n = true) → b = true ∧ r'.current.contents.text = text := by
  cases o with
  | none =>
    obtain ⟨res, h1, h2⟩ := hp r.room hr
    unfold processCurrent
    rw [h1]
    dsimp only
    rw [h2]
    exact ⟨_, _, rfl, fun _ h => by cases h⟩
  | some text =>
    obtain ⟨out, h1, h2⟩ := hp r.room hr
    unfold processCurrent
    rw [h1]
    simp only [Bool.not_true, Bool.false_eq_true, if_false]
    by_cases hlt : text.length < r.room
    · simp only [if_pos hlt]
      exact ⟨_, _, rfl, fun t ht _ => by cases ht; exact ⟨rfl, h2 hlt⟩⟩
    · simp only [if_neg hlt]
      rw [if_neg (by omega)]
      unfold growBuffer
      rw [if_pos (by omega)]
      by_cases ha : alloc (text.length + 1) = true
      · rw [if_pos ha]
        dsimp only
        obtain ⟨out', h3, h4⟩ := hp (text.length + 1) (by omega)
        rw [h3]
        simp only [Bool.not_true, Bool.false_eq_true, if_false, Nat.lt_succ_self, if_true]
        exact ⟨_, _, rfl, fun t ht _ => by cases ht; exact ⟨rfl, h4 (Nat.lt_succ_self _)⟩⟩
      · rw [if_neg ha]
        exact ⟨_, _, rfl, fun _ _ h => absurd (h _) ha⟩

section
variable {alloc : Nat → Bool} {r : Reader}

theorem unescapeCurrent_ok (hr : 0 < r.room) (h : Narrow r.flags r.current.contents.text) :
    ∃ b r', unescapeCurrent alloc r = .ok (b, r') := by
  unfold unescapeCurrent
  dsimp only
  have hf : Narrow (if (decide (r.current.kind = .attrValue) && !r.flags.attr) = true then r.flags.noTrim else r.flags)
      r.current.contents.text := by
    split
    · exact h.noTrim
    · exact h
  revert hf
  generalize (if (decide (r.current.kind = .attrValue) && !r.flags.attr) = true then r.flags.noTrim else r.flags) = fl
  intro hf
  split
  · exact ⟨_, _, rfl⟩
  · have hc : Narrow (if r.current.kind = .comment then { fl with comment := true } else fl) (trim fl r.current.contents).text := by
      split
      · exact hf.trim.comment
      · exact hf.trim
    obtain ⟨o, ho⟩ := unescape_polite hc
    obtain ⟨b, r', h1, _⟩ := processCurrent_ok (alloc := alloc) ho
      (r := { r with current := { r.current with contents := trim fl r.current.contents } }) hr
    exact ⟨b, r', h1⟩

theorem processCdata_ok (hr : 0 < r.room) (h : Narrow r.flags r.current.contents.text) :
    ∃ b r', processCdata alloc r = .ok (b, r') := by
  unfold processCdata
  dsimp only
  have hf : Narrow (if (!r.flags.cdata) = true then r.flags.noTrim else r.flags) r.current.contents.text := by
    split
    · exact h.noTrim
    · exact h
  revert hf
  generalize (if (!r.flags.cdata) = true then r.flags.noTrim else r.flags) = fl
  intro hf
  split
  · exact ⟨_, _, rfl⟩
  · split
    · obtain ⟨o, ho⟩ := reduceCdata_polite (f := fl) (v := trim fl r.current.contents) hf.trim
      obtain ⟨b, r', h1, _⟩ := processCurrent_ok (alloc := alloc) ho
        (r := { r with current := { r.current with contents := trim fl r.current.contents } }) hr
      exact ⟨b, r', h1⟩
    · obtain ⟨b, hb⟩ := validString_ok (trim fl r.current.contents)
      rw [hb]
      exact ⟨_, _, rfl⟩

theorem Narrow.adv {f : Flags} {t t' : Tz} (h : Narrow f t.rest) (a : Adv t t') : Narrow f t'.rest := by
  obtain ⟨p, hp, _⟩ := a
  exact h.suffix hp

theorem readBang_ok {t : Tz} (hr : 0 < r.room) (h : Narrow r.flags t.rest) : ∃ b r', readBang alloc r t = .ok (b, r') := by
  unfold readBang
  split
  · rename_i hp
    obtain ⟨q, hq⟩ := isPrefix_rest hp
    obtain ⟨t1, h1, h2, h3⟩ := advance_eq hq (by decide)
    rw [show ([0x2D, 0x2D] : List Byte).length = 2 from rfl] at h1
    rw [h1]
    simp only [ok_bind]
    rcases parseComment_cases t1 with ⟨t2, tok, e, k, a, _, l⟩ | ⟨t2, tok, p, e, hp, _, a, k, c, l⟩
    · rw [e]
      simp only [ok_bind, k, if_true]
      exact ⟨_, _, rfl⟩
    · rw [e]
      simp only [ok_bind, k, reduceCtorEq, if_false]
      have hn : Narrow r.flags tok.contents.text := by
        rw [c]; exact (h.adv h3).middle (p := []) hp
      obtain ⟨b, r', hu⟩ := unescapeCurrent_ok (alloc := alloc) (r := { r with current := tok }) hr hn
      rw [hu]
      cases b <;> exact ⟨_, _, rfl⟩
  · split
    · rename_i hp
      obtain ⟨q, hq⟩ := isPrefix_rest hp
      obtain ⟨t1, h1, h2, h3⟩ := advance_eq hq (by decide)
      rw [show ([0x5B, 0x43, 0x44, 0x41, 0x54, 0x41, 0x5B] : List Byte).length = 7 from rfl] at h1
      rw [h1]
      simp only [ok_bind]
      split
      · unfold parseCdata
        rcases parseUntil_cases t1 .cdata [0x5D, 0x5D, 0x3E] with ⟨tok, e, k, _, l⟩ | ⟨t2, tok, p, e, hp, _, a, k, c, l⟩
        · rw [e]
          simp only [k, if_true]
          exact ⟨_, _, rfl⟩
        · rw [e]
          simp only [k, reduceCtorEq, if_false]
          have hn : Narrow r.flags tok.contents.text := by
            rw [c]; exact (h.adv h3).middle (p := []) hp
          obtain ⟨b, r', hu⟩ := processCdata_ok (alloc := alloc) (r := { r with current := tok }) hr hn
          rw [hu]
          cases b <;> exact ⟨_, _, rfl⟩
      · exact ⟨_, _, rfl⟩
    · exact ⟨_, _, rfl⟩

theorem readInstructions_ok (ctx : Ctx) (t : Tz) : ∃ b r', readInstructions ctx r t = .ok (b, r') := by
  unfold readInstructions
  dsimp only
  split
  · exact ⟨_, _, rfl⟩
  · obtain ⟨b, hb⟩ := validString_ok (parseInstructions t).1.contents
    rw [hb]
    cases b <;> exact ⟨_, _, rfl⟩

theorem readClose_ok (t : Tz) : ∃ b r', readClose r t = .ok (b, r') := by
  unfold readClose
  obtain ⟨t1, tok, e, _⟩ := parseName_eq t
  rw [e]
  simp only [ok_bind]
  obtain ⟨t2, e2, _⟩ := skipWs_eq t1
  rw [e2]
  simp only [ok_bind]
  cases (deref t2.rest != 0) with
  | false => exact ⟨_, _, rfl⟩
  | true =>
    dsimp only
    split
    · exact ⟨_, _, rfl⟩
    · rename_i h3
      obtain ⟨t3, e3, _⟩ := advance_one (t := t2) (b := 0x3E) (by simpa using h3) (by decide) (by decide)
      rw [e3]
      simp only [ok_bind]
      split
      · exact ⟨_, _, rfl⟩
      · split <;> exact ⟨_, _, rfl⟩

theorem readOpen_ok (t : Tz) : ∃ b r', readOpen r t = .ok (b, r') := by
  unfold readOpen
  obtain ⟨t1, tok, e, _⟩ := parseName_eq t
  rw [e]
  simp only [ok_bind]
  split
  · exact ⟨_, _, rfl⟩
  · obtain ⟨t2, e2, _⟩ := skipWs_eq t1
    rw [e2]
    simp only [ok_bind]
    cases (deref t2.rest != 0) with
    | false => exact ⟨_, _, rfl⟩
    | true =>
      dsimp only
      split
      · rename_i h3
        obtain ⟨t3, e3, _⟩ := advance_one (t := t2) (b := 0x3E) h3 (by decide) (by decide)
        rw [e3]
        exact ⟨_, _, rfl⟩
      · split <;> exact ⟨_, _, rfl⟩

theorem readMarkup_ok {t : Tz} (hr : 0 < r.room) (h : Narrow r.flags t.rest) (hd : deref t.rest = 0x3C) :
    ∃ b r', readMarkup alloc r t = .ok (b, r') := by
  unfold readMarkup
  obtain ⟨t1, e1, h1, a1⟩ := advance_one hd (by decide) (by decide)
  rw [e1]
  simp only [ok_bind]
  split
  · exact ⟨_, _, rfl⟩
  · split
    · rename_i hb
      obtain ⟨t2, e2, h2, a2⟩ := advance_one hb (by decide) (by decide)
      rw [e2]
      exact readBang_ok hr ((h.adv a1).adv a2)
    · split
      · rename_i hb
        obtain ⟨t2, e2, h2, a2⟩ := advance_one hb (by decide) (by decide)
        rw [e2]
        exact readInstructions_ok _ t2
      · split
        · rename_i hb
          obtain ⟨t2, e2, h2, a2⟩ := advance_one hb (by decide) (by decide)
          rw [e2]
          exact readClose_ok t2
        · exact readOpen_ok t1

theorem readContent_ok : ∀ (fuel : Nat) (r : Reader) (t : Tz), t.rest.length < fuel → 0 < r.room → Narrow r.flags t.rest →
    ∃ b r', readContent alloc fuel r t = .ok (b, r') := by
  intro fuel
  induction fuel with
  | zero => intro r t h; omega
  | succ fuel ih =>
    intro r t hf hr hn
    unfold readContent
    split
    · split <;> exact ⟨_, _, rfl⟩
    · rename_i h0
      split
      · rename_i hd
        exact readMarkup_ok hr hn hd
      · rename_i hne
        obtain ⟨q, hq⟩ := deref_cons (b := deref t.rest) rfl h0
        have hlen := congrArg List.length hq
        rw [List.length_cons] at hlen
        split
        · obtain ⟨t1, e1, h1, a1⟩ := skipWs_eq t
          rw [e1]
          cases hd : (deref t1.rest != 0) with
          | false => exact ⟨_, _, rfl⟩
          | true =>
            dsimp only
            split
            · exact ⟨_, _, rfl⟩
            · rename_i h3
              refine ih _ t1 ?_ hr (hn.adv a1)
              obtain ⟨p, hp, _⟩ := a1
              cases p with
              | nil => rw [hp] at hne; exact absurd (by simpa using h3) hne
              | cons x p =>
                have := congrArg List.length hp
                rw [List.cons_append, List.length_cons, List.length_append] at this
                omega
        · obtain ⟨t1, tok, e1, h1, a1, k, c, l⟩ := parseContents_eq t
          rw [e1]
          dsimp only
          split
          · exact ⟨_, _, rfl⟩
          · have hc : Narrow r.flags tok.contents.text := by
              rw [c]
              exact hn.middle (p := []) (r := t.rest.dropWhile (· != 0x3C)) List.takeWhile_append_dropWhile.symm
            obtain ⟨b, s', hu⟩ := unescapeCurrent_ok (alloc := alloc) (r := { r with current := tok }) hr hc
            rw [hu]
            obtain ⟨hs, _⟩ := unescapeCurrent_same hu
            cases b with
            | false => exact ⟨_, _, rfl⟩
            | true =>
              dsimp only
              split
              · refine ih _ t1 ?_ (Nat.lt_of_lt_of_le hr hs.room) (by rw [show s'.flags = r.flags from hs.flags]; exact hn.adv a1)
                have h5 : t1.rest.length ≤ q.length := by
                  rw [h1, hq, List.dropWhile_cons_of_pos (by simpa using hne)]
                  exact (List.dropWhile_sublist _).length_le
                omega
              · exact ⟨_, _, rfl⟩

theorem readEmptyEnd_ok {t : Tz} (hd : deref t.rest = 0x2F) : ∃ b r', readEmptyEnd r t = .ok (b, r') := by
  unfold readEmptyEnd
  obtain ⟨t1, e1, h1, a1⟩ := advance_one hd (by decide) (by decide)
  rw [e1]
  simp only [ok_bind]
  split
  · exact ⟨_, _, rfl⟩
  · rename_i h2
    obtain ⟨t2, e2, h3, a2⟩ := advance_one (t := t1) (b := 0x3E) (by simpa using h2) (by decide) (by decide)
    rw [e2]
    exact ⟨_, _, rfl⟩

theorem readAttrName_ok (t : Tz) : ∃ b r', readAttrName r t = .ok (b, r') := by
  unfold readAttrName
  obtain ⟨t1, tok, e, _⟩ := parseName_eq t
  rw [e]
  simp only [ok_bind]
  split
  · exact ⟨_, _, rfl⟩
  · obtain ⟨t2, e2, _⟩ := skipWs_eq t1
    rw [e2]
    simp only [ok_bind]
    cases (deref t2.rest != 0) with
    | false => exact ⟨_, _, rfl⟩
    | true =>
      dsimp only
      split
      · exact ⟨_, _, rfl⟩
      · rename_i h3
        obtain ⟨t3, e3, _⟩ := advance_one (t := t2) (b := 0x3D) (by simpa using h3) (by decide) (by decide)
        rw [e3]
        simp only [ok_bind]
        obtain ⟨t4, e4, _⟩ := skipWs_eq t3
        rw [e4]
        simp only [ok_bind]
        cases (deref t4.rest != 0) with
        | false => exact ⟨_, _, rfl⟩
        | true =>
          dsimp only
          split <;> exact ⟨_, _, rfl⟩

theorem readAttrValue_ok {t : Tz} (hr : 0 < r.room) (h : Narrow r.flags t.rest) : ∃ b r', readAttrValue alloc r t = .ok (b, r') := by
  unfold readAttrValue
  by_cases hq : deref t.rest = 0x22 ∨ deref t.rest = 0x27
  · obtain ⟨q, hq'⟩ := deref_cons (b := deref t.rest) rfl (by rcases hq with h | h <;> rw [h] <;> decide)
    obtain ⟨t1, tok, e, h1, a, k, c, l⟩ := parseAttrValue_eq t _ hq q hq'
    rw [e]
    simp only [ok_bind]
    split
    · exact ⟨_, _, rfl⟩
    · have hc : Narrow r.flags tok.contents.text := by
        rw [c]
        exact h.middle (p := [deref t.rest]) (r := q.dropWhile (· != deref t.rest)) (by
          rw [List.takeWhile_append_dropWhile]; exact hq')
      obtain ⟨b, s', hu⟩ := unescapeCurrent_ok (alloc := alloc) (r := { r with current := tok }) hr hc
      rw [hu]
      simp only [ok_bind]
      cases b with
      | false => exact ⟨_, _, rfl⟩
      | true =>
        dsimp only
        split
        · exact ⟨_, _, rfl⟩
        · obtain ⟨t2, e2, _⟩ := skipWs_eq t1
          rw [e2]
          simp only [ok_bind]
          cases (deref t2.rest != 0) with
          | false => exact ⟨_, _, rfl⟩
          | true =>
            dsimp only
            split
            · rename_i h3
              obtain ⟨t3, e3, _⟩ := advance_one (t := t2) (b := 0x3E) h3 (by decide) (by decide)
              rw [e3]
              exact ⟨_, _, rfl⟩
            · split <;> exact ⟨_, _, rfl⟩
  · rw [not_or] at hq
    rw [parseAttrValue_not t hq]
    exact ⟨_, _, rfl⟩

theorem Narrow.one {f : Flags} {s : List Byte} (h : Narrow f s) : Narrow f ((s ++ [0]).take 1) := by
  cases s with
  | nil => exact ⟨by decide, fun p q e => by
      have := congrArg List.length e
      simp at this
      omega, .inr (.inr (by decide))⟩
  | cons b s => exact h.middle (p := []) (q := [b]) (r := s) rfl

theorem readLastComment_ok {t : Tz} (hr : 0 < r.room) (h : Narrow r.flags t.rest)
    (hp : [0x3C, 0x21, 0x2D, 0x2D].isPrefixOf t.rest = true) : ∃ b r', readLastComment alloc r t = .ok (b, r') := by
  unfold readLastComment
  obtain ⟨q, hq⟩ := isPrefix_rest hp
  obtain ⟨t1, h1, h2, h3⟩ := advance_eq hq (by decide)
  rw [show ([0x3C, 0x21, 0x2D, 0x2D] : List Byte).length = 4 from rfl] at h1
  rw [h1]
  simp only [ok_bind]
  have key : ∃ t2 tok, parseComment t1 = .ok (tok, t2) ∧ Narrow r.flags tok.contents.text := by
    rcases parseComment_cases t1 with ⟨t2, tok, e, k, a, c | ⟨p, hp, c⟩, l⟩ | ⟨t2, tok, p, e, hp, _, a, k, c, l⟩
    · exact ⟨t2, tok, e, by rw [c]; exact (h.adv h3).one⟩
    · exact ⟨t2, tok, e, by rw [c]; exact (h.adv h3).middle (p := []) hp⟩
    · exact ⟨t2, tok, e, by rw [c]; exact (h.adv h3).middle (p := []) hp⟩
  obtain ⟨t2, tok, e, hc⟩ := key
  rw [e]
  simp only [ok_bind]
  obtain ⟨b, s', hu⟩ := unescapeCurrent_ok (alloc := alloc)
    (r := { r with current := tok, ctx := if tok.kind = .error then r.ctx else .postRoot }) hr hc
  rw [hu]
  cases b <;> exact ⟨_, _, rfl⟩

theorem readPostRoot_ok {t : Tz} (hr : 0 < r.room) (h : Narrow r.flags t.rest) : ∃ b r', readPostRoot alloc r t = .ok (b, r') := by
  unfold readPostRoot
  obtain ⟨t1, e1, _, a1⟩ := skipWs_eq t
  rw [e1]
  simp only [ok_bind]
  cases (deref t1.rest != 0) with
  | false => exact ⟨_, _, rfl⟩
  | true =>
    dsimp only
    split
    · rename_i hp
      exact readLastComment_ok (r := { r with current := makeError t1 }) hr (h.adv a1) hp
    · split
      · rename_i hp
        obtain ⟨q, hq⟩ := isPrefix_rest hp
        obtain ⟨t2, h1, h2, h3⟩ := advance_eq hq (by decide)
        rw [show ([0x3C, 0x3F] : List Byte).length = 2 from rfl] at h1
        rw [h1]
        exact readInstructions_ok _ t2
      · exact ⟨_, _, rfl⟩

theorem nextToken_ok (hr : 0 < r.room) (h : Narrow r.flags r.tz.rest) : ∃ b r', nextToken alloc r = .ok (b, r') := by
  unfold nextToken
  dsimp only
  split
  · exact ⟨_, _, rfl⟩
  · exact ⟨_, _, rfl⟩
  · obtain ⟨t1, e1, h1, a1⟩ := skipWs_eq r.tz
    rw [e1]
    cases (deref t1.rest != 0) with
    | false => exact ⟨_, _, rfl⟩
    | true =>
      dsimp only
      split
      · exact ⟨_, _, rfl⟩
      · exact readContent_ok _ _ t1 (Nat.lt_succ_self _) hr (h.adv a1)
  · exact readContent_ok _ _ _ (Nat.lt_succ_self _) hr h
  · split
    · rename_i hd
      exact readEmptyEnd_ok hd
    · exact readAttrName_ok _
  · exact readAttrValue_ok (r := { r with ctx := .error, current := makeError r.tz }) hr h
  · exact readPostRoot_ok (r := { r with ctx := .error, current := makeError r.tz }) hr h

end

end Tm.Xml
