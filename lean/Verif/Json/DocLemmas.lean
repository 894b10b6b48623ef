import Verif.Json.SoundLemmas

/-! # Documents, without extensions -/

namespace Tm.Json

open Tm Spec

variable {P Q : List Byte → Prop} {R : Shown}

/-- A document whose first token begins a value. -/
theorem document_eq {al : Alloc} {s : List Byte} {tok : Tok} {r : Reader} (hv : IsValueTok tok)
    (e : nextToken strict .null (makeReader s) = .ok (tok, r)) :
    makeDocument strict al s = (do
      let z ← item strict (r.rest.length + 1) al (tok, r)
      let r ← (if z.reader.err = .ok then validUntilEof strict z.reader else .ok z.reader)
      assert (r.rest = [] || r.err ≠ .ok)
      if r.err ≠ .ok then .ok ⟨.scalar .null ⟨true, [], 0⟩, r.err, r.line, r.column⟩
      else .ok ⟨z.val, z.err, 0, 0⟩) := by
  unfold makeDocument readRootType
  rw [rootLoop, e, ok_bind]
  rcases hv with rfl | rfl | rfl
  · dsimp only
    rw [ok_bind]
    dsimp only
    rw [readContainer_eq]
    rfl
  · dsimp only
    rw [ok_bind]
    dsimp only
    rw [readContainer_eq]
    rfl
  · dsimp only
    rw [ok_bind]
    dsimp only
    unfold item
    dsimp only
    rw [if_neg (by simp), if_pos rfl]

/-- The first value of a text. -/
theorem root_ok (hcond : Cond P Q R) {j : Json} {a v b : List Byte} (hv : Value P Q j v) (ha : Ws a) (hb : Ws b)
    (hlast : b ≠ [] ∨ PlainLast v ∨ ∀ t w, w.null = false → R.num w t) {al : Alloc} (hm : al.size + 32 * v.length ≤ al.capacity + 32) :
    ∃ tok r z, nextToken strict .null (makeReader (a ++ (v ++ b))) = .ok (tok, r) ∧ IsValueTok tok ∧
      item strict (r.rest.length + 1) al (tok, r) = .ok z ∧ Done R j v.length al b z := by
  have hsc : (∀ isObj w, v ≠ opening isObj :: w) → ∃ tok r z, nextToken strict .null (makeReader (a ++ (v ++ b))) = .ok (tok, r) ∧
      IsValueTok tok ∧ item strict (r.rest.length + 1) al (tok, r) = .ok z ∧ Done R j v.length al b z := by
    intro hno
    obtain ⟨y, z, e1, _, e2, h2⟩ := read_ok hcond hv .null (makeReader (a ++ (v ++ b))) .eof a b (a ++ (v ++ b)).length al (Sep.ws ha)
      trivial (fun _ => rfl) rfl (stop_white hb) hlast rfl (Nat.le_refl _) hm
    obtain ⟨y', e', _, h'⟩ := tok_value (ctx := .null) (q := makeReader (a ++ (v ++ b))) (l := .eof) hv (Sep.ws ha) trivial rfl
      (stop_white hb) (fun _ => rfl)
    have hy : y' = y := by rw [e1] at e'; injection e' with e'; exact e'.symm
    subst hy
    rcases h' with ⟨h1, _, _⟩ | ⟨isObj, w, h1, _⟩
    · obtain ⟨tok, r⟩ := y'
      dsimp only at h1
      subst h1
      exact ⟨.value, r, z, e1, Or.inr (Or.inr rfl), e2, h2⟩
    · exact absurd h1 (hno _ _)
  by_cases hno : ∀ isObj w, v ≠ opening isObj :: w
  · exact hsc hno
  · have hno : ∃ isObj w, v = opening isObj :: w := by
      by_contra h
      apply hno
      intro o w e
      exact h ⟨o, w, e⟩
    obtain ⟨isObj, w, rfl⟩ := hno
    obtain ⟨r', e, g1, g2, g3⟩ := tok_start (ctx := .null) (r := makeReader (a ++ (opening isObj :: w ++ b))) (a := a) (t := w ++ b) isObj
      rfl ha trivial (fun _ => rfl)
    obtain ⟨z, ez, hz⟩ := inner_ok hcond _ isObj j w hv (Nat.lt_succ_self _) (r'.rest.length + 1) al r' b g1 g2 g3 (Nat.lt_succ_self _) hm
    refine ⟨_, r', z, e, ?_, ez, hz⟩
    cases isObj
    · exact Or.inr (Or.inl rfl)
    · exact Or.inl rfl

/-- White space up to the end. -/
theorem eof_ok {r : Reader} (hr : Ws r.rest) (hl : r.last ≠ .eof) (he : r.err = .ok) :
    ∃ r', validUntilEof strict r = .ok r' ∧ r'.rest = [] ∧ r'.err = .ok := by
  unfold validUntilEof
  by_cases h0 : r.rest = []
  · rw [if_pos (by simp [h0])]
    exact ⟨r, rfl, h0, he⟩
  · rw [if_neg (by simp [h0, hl]), eofLoop]
    obtain ⟨r', e, h1, h2⟩ := tok_eof hr
    rw [e, ok_bind]
    exact ⟨r', rfl, h1, h2.trans he⟩

theorem eof_inv {r : Reader} (hb : ¬ BadEnd r.rest) (hl : r.last ≠ .eof) (he : r.err = .ok) :
    ∃ r', validUntilEof strict r = .ok r' ∧ ((Ws r.rest ∧ r'.rest = [] ∧ r'.err = .ok) ∨ (r'.err ≠ .ok)) := by
  by_cases hws : Ws r.rest
  · obtain ⟨r', e, h1, h2⟩ := eof_ok hws hl he
    exact ⟨r', e, Or.inl ⟨hws, h1, h2⟩⟩
  unfold validUntilEof
  have h0 : r.rest ≠ [] := by intro h; rw [h] at hws; exact hws (by intro b hb; cases hb)
  rw [if_neg (by simp [h0, hl]), eofLoop]
  have h := nextToken_res .null r
  generalize hx : nextToken strict .null r = x at h
  cases h with
  | oob h => exact absurd h hb
  | @error r' h =>
    rw [ok_bind]
    dsimp only
    rw [if_neg h.1]
    exact ⟨_, rfl, Or.inr h.1⟩
  | @tok tok r' l sep body hs hlex hr he' hlast =>
    rw [ok_bind]
    have hbad : ∃ r2, (if r'.err = .ok then (Except.ok (setError { r' with rest := r.rest } .unexpectedToken) : C Reader) else .ok r') = .ok r2 ∧
        r2.err ≠ .ok := by
      rw [if_pos (he'.trans he)]
      exact ⟨_, rfl, by simp [setError]⟩
    cases hlex with
    | eof _ h =>
      exfalso
      apply hws
      generalize r.last = l0 at hs
      cases hs with
      | ws ha => rw [hr, h]; simpa using ha
      | comma h _ _ _ => exact absurd rfl h
      | colon h _ _ => cases h
    | objEnd h => cases h
    | arrEnd h => cases h
    | name h => cases h
    | objStart => obtain ⟨r2, e, h⟩ := hbad; exact ⟨r2, e, Or.inr h⟩
    | arrStart => obtain ⟨r2, e, h⟩ := hbad; exact ⟨r2, e, Or.inr h⟩
    | str => obtain ⟨r2, e, h⟩ := hbad; exact ⟨r2, e, Or.inr h⟩
    | scal => obtain ⟨r2, e, h⟩ := hbad; exact ⟨r2, e, Or.inr h⟩

theorem ends_not_eof {l : Tok} (h : Ends l) : l ≠ .eof := by rcases h with h | h | h <;> rw [h] <;> simp

/-- Texts of the grammar are accepted. -/
theorem document_ok (hcond : Cond P Q R) {j : Json} {s : List Byte} (ht : Text P Q j s) (hlast : PlainLast s ∨ ∀ t w, w.null = false → R.num w t) {al : Alloc}
    (hm : al.size + 32 * s.length ≤ al.capacity + 32) :
    ∃ doc, makeDocument strict al s = .ok doc ∧ doc.err = .ok ∧ MeansBy R doc.root j := by
  obtain ⟨a, v, b, ha, hv, hb, rfl⟩ := ht
  obtain ⟨tok, r, z, e, hvt, ez, hz⟩ := root_ok hcond hv ha hb (al := al) (by
    by_cases h : b = []
    · right
      rcases hlast with hlast | hlast
      · left
        intro p c hp
        exact hlast (a ++ p) c (by rw [hp, h]; simp)
      · exact Or.inr hlast
    · exact Or.inl h) (by simp at hm; omega)
  rw [document_eq hvt e, ez, ok_bind, if_pos hz.rerr]
  obtain ⟨r', e', h1, h2⟩ := eof_ok (r := z.reader) (by rw [hz.rest]; exact hb) (ends_not_eof hz.last) hz.rerr
  rw [e', ok_bind, show assert (decide (r'.rest = []) || decide (r'.err ≠ .ok)) = .ok () by rw [h1]; rfl, ok_bind, if_neg (by simp [h2])]
  exact ⟨_, rfl, hz.err, hz.val⟩

/-- Every text is handled, and what is accepted is a text of the grammar. -/
theorem document_sound {al : Alloc} {s : List Byte} (hb : ¬ BadEnd s) :
    ∃ doc, makeDocument strict al s = .ok doc ∧ (doc.err = .ok → IsJson s) := by
  have h := nextToken_res .null (makeReader s)
  generalize hx : nextToken strict .null (makeReader s) = x at h
  have hroot : ∀ (t : Tok) (r' : Reader), nextToken strict .null (makeReader s) = .ok (t, r') → (t = .error ∨ t = .eof) →
      ∃ doc, makeDocument strict al s = .ok doc ∧ (doc.err = .ok → IsJson s) := by
    intro t r' e ht
    unfold makeDocument readRootType
    rw [rootLoop, e, ok_bind]
    rcases ht with rfl | rfl
    · dsimp only
      rw [ok_bind]
      dsimp only
      rw [ok_bind]
      dsimp only
      rw [if_neg (by simp [setError]), ok_bind, show assert (decide ((setError r' .unexpectedToken).rest = []) ||
        decide ((setError r' .unexpectedToken).err ≠ .ok)) = .ok () by simp [setError, assert], ok_bind, if_pos (by simp [setError])]
      exact ⟨_, rfl, fun h => by simp [setError] at h⟩
    · dsimp only
      rw [ok_bind]
      dsimp only
      rw [ok_bind]
      dsimp only
      rw [if_neg (by simp [setError]), ok_bind, show assert (decide ((setError r' .unexpectedToken).rest = []) ||
        decide ((setError r' .unexpectedToken).err ≠ .ok)) = .ok () by simp [setError, assert], ok_bind, if_pos (by simp [setError])]
      exact ⟨_, rfl, fun h => by simp [setError] at h⟩
  cases h with
  | oob h => exact absurd h hb
  | @error r' h => exact hroot _ _ hx (Or.inl rfl)
  | @tok tok r' l sep body hs hlex hr he hlast =>
    have hws : Ws sep := by
      cases hs with
      | ws ha => exact ha
      | comma h _ _ _ => exact absurd rfl h
    have hr : s = sep ++ (body ++ r'.rest) := hr
    have hsuf : r'.rest <:+ s := by rw [hr]; exact ⟨sep ++ body, by simp⟩
    rcases lexed_cases hlex with ⟨hv, _⟩ | ⟨h, _⟩ | ⟨h, _⟩ | ⟨h, _⟩ | ⟨_, h⟩
    · rw [document_eq hv hx]
      obtain ⟨z, ez, hz⟩ := item_sound (sound (r'.rest.length + 1)) (a := al) hlex hv he hlast (BadEnd.not_suffix hb hsuf)
        (Nat.lt_succ_self _)
      rw [ez, ok_bind]
      by_cases hre : z.reader.err = .ok
      · rw [if_pos hre]
        have hl2 : z.reader.last ≠ .eof := by
          rcases hz with ⟨_, _, h, _⟩ | h
          · exact ends_not_eof h
          · rcases h.seen with h | h
            · exact absurd hre h
            · exact h.2
        have hs2 : z.reader.rest <:+ r'.rest := by
          rcases hz with ⟨_, _, _, _, w, _, h⟩ | h
          · exact ⟨w, h.symm⟩
          · exact h.suffix
        obtain ⟨r2, e2, h2⟩ := eof_inv (BadEnd.not_suffix hb (hs2.trans hsuf)) hl2 hre
        rw [e2, ok_bind]
        rcases h2 with ⟨g1, g2, g3⟩ | g
        · rw [show assert (decide (r2.rest = []) || decide (r2.err ≠ .ok)) = .ok () by rw [g2]; rfl, ok_bind, if_neg (by simp [g3])]
          refine ⟨_, rfl, fun h => ?_⟩
          rcases hz with ⟨_, _, _, j, w, hj, hw⟩ | hz
          · exact ⟨j, sep, body ++ w, z.reader.rest, hws, hj, g1, by rw [hr, hw]; simp⟩
          · exact absurd h hz.err
        · rw [show assert (decide (r2.rest = []) || decide (r2.err ≠ .ok)) = .ok () by simp [g, assert], ok_bind, if_pos g]
          exact ⟨_, rfl, fun h => absurd h g⟩
      · rw [if_neg hre, ok_bind, show assert (decide (z.reader.rest = []) || decide (z.reader.err ≠ .ok)) = .ok () by simp [hre, assert],
          ok_bind, if_pos hre]
        exact ⟨_, rfl, fun h => absurd h hre⟩
    · cases h
    · cases h
    · cases h
    · subst h
      exact hroot _ _ hx (Or.inr rfl)

end Tm.Json
