import Verif.Xml.GrammarLemmas

/-!
Reading the prolog always ends without a fault, and only moves the reader forward.
-/

namespace Tm.Xml

/-- Some step, if any, only moves forward. -/
def Onward {α : Type} (t : Tz) (x : C (Option (α × Tz))) : Prop :=
  ∃ o, x = .ok o ∧ ∀ a t', o = some (a, t') → Adv t t'

theorem Onward.stop {α : Type} {t : Tz} : Onward (α := α) t (.ok none) := ⟨none, rfl, fun _ _ h => by cases h⟩

theorem Onward.stay {α : Type} {t t' : Tz} {a : α} (h : Adv t t') : Onward t (.ok (some (a, t'))) :=
  ⟨_, rfl, fun _ _ e => by cases e; exact h⟩

theorem Onward.after {α : Type} {t t' : Tz} {x : C (Option (α × Tz))} (h : Adv t t') (hx : Onward t' x) : Onward t x := by
  obtain ⟨o, h1, h2⟩ := hx
  exact ⟨o, h1, fun a u e => h.trans (h2 a u e)⟩

theorem parseAttrValue_adv (t : Tz) : ∃ tok t', parseAttrValue t = .ok (tok, t') ∧ Adv t t' := by
  by_cases hq : deref t.rest = 0x22 ∨ deref t.rest = 0x27
  · obtain ⟨q, hq'⟩ := deref_cons (b := deref t.rest) rfl (by rcases hq with h | h <;> rw [h] <;> decide)
    obtain ⟨t1, tok, e, h1, a, _⟩ := parseAttrValue_eq t _ hq q hq'
    exact ⟨tok, t1, e, a⟩
  · rw [not_or] at hq
    exact ⟨_, _, parseAttrValue_not t hq, Adv.refl t⟩

theorem prologValue_ok (t : Tz) : Onward t (prologValue t) := by
  unfold prologValue
  obtain ⟨t1, e1, _, a1⟩ := skipWs_eq t
  rw [e1]
  simp only [ok_bind]
  cases (deref t1.rest != 0) with
  | false => exact .stop
  | true =>
    dsimp only
    split
    · exact .stop
    · rename_i h2
      obtain ⟨t2, e2, _, a2⟩ := advance_one (t := t1) (b := 0x3D) (by simpa using h2) (by decide) (by decide)
      rw [e2]
      simp only [ok_bind]
      obtain ⟨t3, e3, _, a3⟩ := skipWs_eq t2
      rw [e3]
      simp only [ok_bind]
      cases (deref t3.rest != 0) with
      | false => exact .stop
      | true =>
        dsimp only
        obtain ⟨tok, t4, e4, a4⟩ := parseAttrValue_adv t3
        rw [e4]
        simp only [ok_bind]
        split
        · exact .stop
        · split
          · exact .stop
          · exact .stay (((a1.trans a2).trans a3).trans a4)

theorem prologNext_ok (t : Tz) : Onward t (prologNext t) := by
  unfold prologNext
  split
  · exact .stop
  · obtain ⟨t1, e1, _, a1⟩ := skipWs_eq t
    rw [e1]
    simp only [ok_bind]
    cases (deref t1.rest != 0) with
    | false => exact .stop
    | true =>
      dsimp only
      obtain ⟨t2, tok, e2, _, a2, _⟩ := parseName_eq t1
      rw [e2]
      exact .stay (a1.trans a2)

theorem prologEnd_ok (tok : Token) (out : Prolog) (t : Tz) : Onward t (prologEnd tok out t) := by
  unfold prologEnd
  split
  · exact .stop
  · obtain ⟨t1, e1, _, a1⟩ := skipWs_eq t
    rw [e1]
    simp only [ok_bind]
    cases (deref t1.rest != 0) with
    | false => exact .stop
    | true =>
      dsimp only
      split
      · exact .stop
      · split
        · exact .stop
        · rename_i h2
          obtain ⟨t2, e2, _, a2⟩ := advance_one (t := t1) (b := 0x3F) (by simpa using h2) (by decide) (by decide)
          rw [e2]
          simp only [ok_bind]
          split
          · exact .stop
          · rename_i h3
            obtain ⟨t3, e3, _, a3⟩ := advance_one (t := t2) (b := 0x3E) (by simpa using h3) (by decide) (by decide)
            rw [e3]
            exact .stay ((a1.trans a2).trans a3)

theorem prologStandalone_ok (tok : Token) (out : Prolog) (t : Tz) : Onward t (prologStandalone tok out t) := by
  unfold prologStandalone
  split
  · obtain ⟨o, h1, h2⟩ := prologValue_ok t
    rw [h1]
    simp only [ok_bind]
    cases o with
    | none => exact .stop
    | some x =>
      obtain ⟨v, t1⟩ := x
      have a := h2 v t1 rfl
      dsimp only
      split
      · exact (prologEnd_ok _ _ t1).after a
      · split
        · split
          · exact (prologEnd_ok _ _ t1).after a
          · exact .stop
        · exact .stop
  · exact prologEnd_ok _ _ t

theorem prologEncoding_ok (tok : Token) (out : Prolog) (t : Tz) : Onward t (prologEncoding tok out t) := by
  unfold prologEncoding
  split
  · obtain ⟨o, h1, h2⟩ := prologValue_ok t
    rw [h1]
    simp only [ok_bind]
    cases o with
    | none => exact .stop
    | some x =>
      obtain ⟨v, t1⟩ := x
      have a := h2 v t1 rfl
      dsimp only
      obtain ⟨o, h3, h4⟩ := prologNext_ok t1
      rw [h3]
      simp only [ok_bind]
      cases o with
      | none => exact .stop
      | some x =>
        obtain ⟨tok, t2⟩ := x
        exact (prologStandalone_ok _ _ t2).after (a.trans (h4 _ _ rfl))
  · exact prologStandalone_ok _ _ t

theorem prologBody_ok (t : Tz) : Onward t (prologBody t) := by
  unfold prologBody
  split
  · exact .stop
  · rename_i hp
    have hp' : [0x78, 0x6D, 0x6C].isPrefixOf t.rest = true := by simpa using hp
    obtain ⟨q, hq⟩ := isPrefix_rest hp'
    obtain ⟨t1, h1, h2, a1⟩ := advance_eq hq (by decide)
    rw [show ([0x78, 0x6D, 0x6C] : List Byte).length = 3 from rfl] at h1
    rw [h1]
    simp only [ok_bind]
    split
    · exact .stop
    · obtain ⟨t2, e2, _, a2⟩ := skipWs_eq t1
      rw [e2]
      simp only [ok_bind]
      cases (deref t2.rest != 0) with
      | false => exact .stop
      | true =>
        dsimp only
        obtain ⟨t3, tok, e3, _, a3, _⟩ := parseName_eq t2
        rw [e3]
        simp only [ok_bind]
        split
        · exact .stop
        · split
          · exact .stop
          · obtain ⟨o, h4, h5⟩ := prologValue_ok t3
            rw [h4]
            simp only [ok_bind]
            cases o with
            | none => exact .stop
            | some x =>
              obtain ⟨v, t4⟩ := x
              have a4 := h5 v t4 rfl
              dsimp only
              obtain ⟨o, h6, h7⟩ := prologNext_ok t4
              rw [h6]
              simp only [ok_bind]
              cases o with
              | none => exact .stop
              | some x =>
                obtain ⟨tok, t5⟩ := x
                exact (prologEncoding_ok _ _ t5).after ((((a1.trans a2).trans a3).trans a4).trans (h7 _ _ rfl))

theorem takeWhile_mem {p : Byte → Bool} {s : List Byte} {b : Byte} (h : b ∈ s.takeWhile p) : p b = true := by
  induction s with
  | nil => cases h
  | cons c s ih =>
    rw [List.takeWhile_cons] at h
    split at h
    · rcases List.mem_cons.mp h with rfl | h
      · assumption
      · exact ih h
    · cases h

theorem doctypeLoop_ok : ∀ (fuel depth : Nat) (t : Tz), t.rest.length < fuel → ∃ t', doctypeLoop fuel depth t = .ok t' ∧ Adv t t' := by
  intro fuel
  induction fuel with
  | zero => intro d t h; omega
  | succ fuel ih =>
    intro depth t hf
    unfold doctypeLoop
    dsimp only
    generalize hp : (fun b : Byte => b != 0x0A && b != 0x3C && b != 0x3E) = p
    have hsplit := List.takeWhile_append_dropWhile (p := p) (l := t.rest)
    have hcount : (t.rest.takeWhile p).count 0x0A = 0 := by
      rw [List.count_eq_zero]
      intro hm
      have := takeWhile_mem hm
      rw [← hp] at this
      exact absurd this (by decide)
    have step : ∀ (b : Byte) (loc : Loc), deref (t.rest.dropWhile p) = b → b ≠ 0 →
        loc.line = t.loc.line + BitVec.ofNat 32 ([b].count 0x0A) →
        ∀ off, Adv t { rest := (t.rest.dropWhile p).tail, loc := { loc with offset := off } } ∧
          (t.rest.dropWhile p).tail.length < fuel := by
      intro b loc hb h0 hl off
      obtain ⟨q, hq⟩ := deref_cons hb h0
      rw [hq, List.tail_cons]
      have e : t.rest = (t.rest.takeWhile p ++ [b]) ++ q := by
        rw [List.append_assoc, List.singleton_append, ← hq, hsplit]
      refine ⟨⟨_, e, ?_⟩, ?_⟩
      · rw [List.count_append, hcount, Nat.zero_add]; exact hl
      · have := congrArg List.length e
        rw [List.length_append, List.length_append, List.length_singleton] at this
        omega
    split
    · rename_i h
      obtain ⟨a, l⟩ := step 0x0A { t.loc with column := 0, line := t.loc.line + 1 } h (by decide) rfl
        (t.loc.offset + BitVec.ofNat 32 (t.rest.length - (t.rest.dropWhile p).tail.length))
      obtain ⟨t', h1, h2⟩ := ih depth { rest := (t.rest.dropWhile p).tail, loc := { ({ t.loc with column := 0, line := t.loc.line + 1 } : Loc) with offset := _ } } l
      exact ⟨t', h1, a.trans h2⟩
    · split
      · rename_i h
        obtain ⟨a, l⟩ := step 0x3E t.loc h (by decide) (by simp)
          (t.loc.offset + BitVec.ofNat 32 (t.rest.length - (t.rest.dropWhile p).tail.length))
        split
        · exact ⟨_, rfl, a⟩
        · obtain ⟨t', h1, h2⟩ := ih (depth - 1) { rest := (t.rest.dropWhile p).tail, loc := { (t.loc : Loc) with offset := _ } } l
          exact ⟨t', h1, a.trans h2⟩
      · split
        · rename_i h
          obtain ⟨a, l⟩ := step 0x3C t.loc h (by decide) (by simp)
            (t.loc.offset + BitVec.ofNat 32 (t.rest.length - (t.rest.dropWhile p).tail.length))
          obtain ⟨t', h1, h2⟩ := ih (depth + 1) { rest := (t.rest.dropWhile p).tail, loc := { (t.loc : Loc) with offset := _ } } l
          exact ⟨t', h1, a.trans h2⟩
        · exact ⟨t, rfl, Adv.refl t⟩

theorem doctypeScan_ok (rollback : Tz) : ∀ (fuel : Nat) (t : Tz), Adv rollback t → t.rest.length < fuel →
    ∃ b o, doctypeScan rollback fuel t = .ok (b, o) ∧ ∀ t' d, o = some (t', d) → Adv rollback t' := by
  intro fuel
  induction fuel with
  | zero => intro t _ h; omega
  | succ fuel ih =>
    intro t a0 hf
    unfold doctypeScan
    obtain ⟨t1, e1, _, a1⟩ := skipWs_eq t
    rw [e1]
    have a1' := a0.trans a1
    have stop : ∀ b, ∃ b' o, (.ok (b, none) : C (Bool × Option (Tz × Bool))) = .ok (b', o) ∧
        ∀ t' d, o = some (t', d) → Adv rollback t' := fun b => ⟨b, none, rfl, fun _ _ h => by cases h⟩
    have stay : ∀ b t2 d, Adv rollback t2 → ∃ b' o, (.ok (b, some (t2, d)) : C (Bool × Option (Tz × Bool))) = .ok (b', o) ∧
        ∀ t' d, o = some (t', d) → Adv rollback t' := fun b t2 d h => ⟨b, _, rfl, fun _ _ e => by cases e; exact h⟩
    cases (deref t1.rest != 0) with
    | false => exact stop _
    | true =>
      dsimp only
      split
      · exact stay _ _ _ a1'
      · rename_i hd
        obtain ⟨q, hq⟩ := deref_cons (s := t1.rest) (b := 0x3C) (by simpa using hd) (by decide)
        have hat : at' t1.rest 1 = .ok (deref q) := by
          rw [hq]
          cases q <;> rfl
        rw [hat]
        dsimp only
        split
        · exact stay _ _ _ (Adv.refl _)
        · rename_i hc
          obtain ⟨q', hq'⟩ := deref_cons (s := q) (b := 0x21) (by simpa using hc) (by decide)
          obtain ⟨t2, h2, h3, a2⟩ := advance_eq (t := t1) (p := [0x3C, 0x21]) (s := q') (by rw [hq, hq']; rfl) (by decide)
          rw [show ([0x3C, 0x21] : List Byte).length = 2 from rfl] at h2
          rw [h2]
          dsimp only
          split
          · rename_i hp
            obtain ⟨s, hs⟩ := isPrefix_rest hp
            obtain ⟨t3, h4, h5, a3⟩ := advance_eq hs (by decide)
            rw [show ([0x2D, 0x2D] : List Byte).length = 2 from rfl] at h4
            rw [h4]
            dsimp only
            rcases parseComment_cases t3 with ⟨t4, tok, e, k, a4, _⟩ | ⟨t4, tok, p, e, _, _, a4, k, _⟩
            · rw [e]
              simp only [k, if_true]
              exact stop _
            · rw [e]
              simp only [k, reduceCtorEq, if_false]
              refine ih t4 (((a1'.trans a2).trans a3).trans a4) ?_
              have := a1.le
              have := a4.le
              have := a3.le
              rw [hq, hq'] at *
              rw [h3] at *
              simp only [List.length_cons] at *
              omega
          · split
            · rename_i hp
              obtain ⟨s, hs⟩ := isPrefix_rest hp
              obtain ⟨t3, h4, h5, a3⟩ := advance_eq hs (by decide)
              rw [show ([0x44, 0x4F, 0x43, 0x54, 0x59, 0x50, 0x45] : List Byte).length = 7 from rfl] at h4
              rw [h4]
              dsimp only
              obtain ⟨t4, h6, a4⟩ := doctypeLoop_ok (t3.rest.length + 1) 1 t3 (Nat.lt_succ_self _)
              rw [h6]
              exact stay _ _ _ (((a1'.trans a2).trans a3).trans a4)
            · exact stay _ _ _ (a1'.trans a2)

/-- Reading the prolog never fails an assertion and never reads outside of the document. -/
theorem readProlog_ok (r : Reader) : ∃ b p t, readProlog r = .ok (b, p, { r with tz := t }) ∧ Adv r.tz t := by
  have scan : ∀ (out : Prolog) (t : Tz), Adv r.tz t → ∃ b p t', (do
      match ← doctypeScan t (t.rest.length + 1) t with
      | (b, none) => .ok (b, out, r)
      | (b, some (t, skipped)) => .ok (b, { out with skippedDoctype := skipped }, { r with tz := t }) : C (Bool × Prolog × Reader))
        = .ok (b, p, { r with tz := t' }) ∧ Adv r.tz t' := by
    intro out t a
    obtain ⟨b, o, h1, h2⟩ := doctypeScan_ok t (t.rest.length + 1) t (Adv.refl t) (Nat.lt_succ_self _)
    rw [h1]
    cases o with
    | none => exact ⟨b, out, r.tz, rfl, Adv.refl _⟩
    | some x =>
      obtain ⟨t', d⟩ := x
      exact ⟨b, _, t', rfl, a.trans (h2 t' d rfl)⟩
  unfold readProlog
  dsimp only
  split
  · rename_i hp
    obtain ⟨q, hq⟩ := isPrefix_rest hp
    obtain ⟨t1, h1, _, a1⟩ := advance_eq hq (by decide)
    rw [show ([0x3C, 0x3F] : List Byte).length = 2 from rfl] at h1
    rw [h1]
    simp only [ok_bind]
    obtain ⟨o, h2, h3⟩ := prologBody_ok t1
    rw [h2]
    simp only [ok_bind]
    cases o with
    | none => exact ⟨_, _, r.tz, rfl, Adv.refl _⟩
    | some x => exact scan _ _ (a1.trans (h3 x.1 x.2 rfl))
  · exact scan _ _ (Adv.refl _)

theorem Started.adv {doc : List Byte} {flags : Flags} {r : Reader} (h : Started doc flags r) : Adv (makeReader doc flags).tz r.tz := by
  cases h with
  | fresh => exact Adv.refl _
  | prolog p r h =>
    obtain ⟨b, p', t, h1, h2⟩ := readProlog_ok (makeReader doc flags)
    rw [h1] at h
    cases h
    exact h2

end Tm.Xml
