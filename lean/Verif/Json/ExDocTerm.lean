import Verif.Json.ExDoc
import Verif.Json.ExTerm

/-! # Reading extended documents ends -/

namespace Tm.Json

open Tm Tm.Json.Spec

/-- Reading the value whose first token is `y`: the part of the loops that is the same for elements, members and the root. -/
def itemEx (f : FlagsEx) (fuel : Nat) (a : Alloc) (y : Tok × Reader) : C (Result JVal) :=
  if y.1 = .objStart || y.1 = .arrStart then do
    let c ← countLoopEx f (y.1 = .objStart) (y.2.rest.length + 1) 0 y.2
    if c.1 ≠ .ok then .ok ⟨c.1, .junk, a, c.2.2⟩
    else match allocate a (c.2.1 * if decide (y.1 = .objStart) then 48 else 32) 8 with
      | none => .ok ⟨.outOfMemory, .junk, a, y.2⟩
      | some (_, a) => do
        let z ← readLoopEx f fuel (y.1 = .objStart) c.2.1 [] a y.2
        .ok ⟨z.err, container (y.1 = .objStart) z.val, z.alloc, z.reader⟩
  else if y.1 = .value then do
    let v ← readScalarEx a y.2
    .ok ⟨.ok, v.1, v.2, y.2⟩
  else if y.2.err ≠ .ok then .ok ⟨y.2.err, .junk, a, y.2⟩
  else .error .assertion

/-- The loop in terms of `itemEx`. -/
theorem readLoopEx_eq (f : FlagsEx) (fuel : Nat) (isObj : Bool) (count : Nat) (acc : List (View × JVal)) (a : Alloc) (r : Reader) :
    readLoopEx f (fuel + 1) isObj count acc a r = (do
      let x ← nextTokenEx f (ctxOf isObj) r
      if (isObj && x.1 = .objEnd) || (!isObj && x.1 = .arrEnd) then .ok ⟨x.2.err, pad count acc, a, x.2⟩
      else if x.1 = .comment then readLoopEx f fuel isObj count acc a x.2
      else if (isObj && x.1 = .propName) || (!isObj && (x.1 = .objStart || x.1 = .arrStart || x.1 = .value)) then
        if acc.length < count then do
          let y ← (if isObj then valueTokenEx f (x.2.rest.length + 1) x.2 else .ok x)
          let z ← itemEx f fuel a y
          if z.err ≠ .ok then .ok ⟨z.err, [], z.alloc, z.reader⟩
          else readLoopEx f fuel isObj count (acc ++ [(x.2.cur, z.val)]) z.alloc z.reader
        else .error .oob
      else if x.2.err ≠ .ok then .ok ⟨x.2.err, [], a, x.2⟩
      else .error .assertion) := by
  rw [readLoopEx]
  dsimp only
  cases hx : nextTokenEx f (if isObj = true then Ctx.object else Ctx.array) r with
  | error e => rfl
  | ok x =>
    rw [ok_bind, ok_bind]
    split
    · rfl
    split
    · rfl
    split
    · split
      · cases hy : (if isObj = true then valueTokenEx f (x.2.rest.length + 1) x.2 else Except.ok x) with
        | error e => rw [error_bind, error_bind]
        | ok y =>
          rw [ok_bind, ok_bind]
          unfold itemEx
          split
          · cases hc : countLoopEx f (decide (y.1 = .objStart)) (y.2.rest.length + 1) 0 y.2 with
            | error e => rfl
            | ok c =>
              rw [ok_bind, ok_bind]
              split
              · rename_i h
                rw [ok_bind, if_pos h]
              · cases hal : allocate a (c.2.1 * if decide (y.1 = .objStart) = true then 48 else 32) 8 with
                | none =>
                  dsimp only
                  rw [ok_bind, if_pos (by simp)]
                | some pa =>
                  obtain ⟨p, a'⟩ := pa
                  dsimp only
                  cases hz : readLoopEx f fuel (decide (y.1 = .objStart)) c.2.1 [] a' y.2 with
                  | error e => rfl
                  | ok z =>
                    rw [ok_bind, ok_bind, ok_bind]
          · split
            · cases hv : readScalarEx a y.2 with
              | error e => rfl
              | ok v =>
                rw [ok_bind, ok_bind, ok_bind, if_neg (by simp)]
            · split
              · rename_i h
                rw [ok_bind, if_pos h]
              · rfl
      · rfl
    · rfl

theorem readContainerEx_eq (f : FlagsEx) (isObj : Bool) (a : Alloc) (r : Reader) :
    readContainerEx f isObj a r = itemEx f (r.rest.length + 1) a (startTok isObj, r) := by
  unfold readContainerEx itemEx
  cases isObj
  · rfl
  · rfl

theorem nextTokenEx_good (f : FlagsEx) (ctx : Ctx) (r : Reader) : Good (nextTokenEx f ctx r) (Takes ctx r.rest.length) :=
  nextLoopEx_good f ctx _ r (Nat.lt_succ_self _)

/-! ### Skipping, counting and reading -/

theorem eofLoopEx_good (f : FlagsEx) : ∀ (fuel : Nat) (r : Reader), r.rest.length < fuel → Good (eofLoopEx f fuel r) (fun _ => True) := by
  intro fuel
  induction fuel with
  | zero => intro _ h; omega
  | succ fuel ih =>
    intro r hf
    rw [eofLoopEx]
    refine Good.bind (nextTokenEx_good f .null r) fun x hx => ?_
    split
    · rename_i h
      rcases hx.2 with h' | ⟨h', _⟩ | h'
      · rw [h] at h'; cases h'
      · rw [h] at h'; cases h'
      · exact ih _ (by omega)
    · exact .ok trivial

theorem rootLoopEx_good (f : FlagsEx) : ∀ (fuel : Nat) (r : Reader), r.rest.length < fuel → Good (rootLoopEx f fuel r) (fun _ => True) := by
  intro fuel
  induction fuel with
  | zero => intro _ h; omega
  | succ fuel ih =>
    intro r hf
    rw [rootLoopEx]
    refine Good.bind (nextTokenEx_good f .null r) fun x hx => ?_
    split
    · exact .ok trivial
    · exact .ok trivial
    · exact .ok trivial
    · rename_i h
      rcases hx.2 with h' | ⟨h', _⟩ | h'
      · rw [h] at h'; cases h'
      · rw [h] at h'; cases h'
      · exact ih _ (by omega)
    · exact .ok trivial

theorem contentLoopEx_good (f : FlagsEx) (ctx : Ctx) : ∀ (fuel : Nat) (r : Reader), r.rest.length < fuel →
    Good (contentLoopEx f ctx fuel r) (fun x => x.2.2.rest.length ≤ r.rest.length) := by
  intro fuel
  induction fuel with
  | zero => intro _ h; omega
  | succ fuel ih =>
    intro r hf
    rw [contentLoopEx]
    refine Good.bind (nextTokenEx_good f ctx r) fun x hx => ?_
    split
    · exact .ok hx.1
    · exact .ok hx.1
    · exact .ok hx.1
    · rename_i h
      rcases hx.2 with h' | ⟨h', _⟩ | h'
      · rw [h] at h'; cases h'
      · rw [h] at h'; cases h'
      · exact (ih _ (by omega)).mono fun y hy => Nat.le_trans hy hx.1
    · exact .ite (fun _ => .ok hx.1) fun _ => .error (by simp)

theorem skipCurrentEx_good (f : FlagsEx) (ctx : Ctx) (r : Reader) : Good (skipCurrentEx f ctx r) (fun x => x.2.rest.length ≤ r.rest.length) := by
  unfold skipCurrentEx
  refine .ite (fun _ => .ok (Nat.le_refl _)) fun _ => .ite (fun _ => ?_) fun _ => bracketLoop_good _ _ _ _ _ (Nat.lt_succ_self _)
  refine Good.bind (contentLoopEx_good f ctx _ r (Nat.lt_succ_self _)) fun x hx => ?_
  split
  · exact .ok hx
  · exact .ite (fun _ => .ok hx) fun _ => (bracketLoop_good _ _ _ _ _ (Nat.lt_succ_self _)).mono fun y hy => Nat.le_trans hy hx

theorem countLoopEx_good (f : FlagsEx) (isObj : Bool) : ∀ (fuel n : Nat) (r : Reader), r.rest.length < fuel →
    Good (countLoopEx f isObj fuel n r) (fun x => x.2.2.rest.length ≤ r.rest.length) := by
  intro fuel
  induction fuel with
  | zero => intro _ _ h; omega
  | succ fuel ih =>
    intro n r hf
    rw [countLoopEx]
    dsimp only
    refine Good.bind (nextTokenEx_good f _ r) fun x hx => ?_
    have htok : x.1 ≠ .error → x.1 ≠ .eof → x.2.rest.length < r.rest.length := by
      intro h1 h2
      rcases hx.2 with h | ⟨h, _⟩ | h
      · exact absurd h h1
      · exact absurd h h2
      · exact h.1
    have hstep : ∀ (m : Nat) (r' : Reader), r'.rest.length < r.rest.length →
        Good (countLoopEx f isObj fuel m r') (fun x => x.2.2.rest.length ≤ r.rest.length) := by
      intro m r' hr'
      exact (ih m r' (by omega)).mono fun y hy => by omega
    refine .ite (fun h => ?_) fun _ => .ite (fun h => ?_) fun _ => .ite (fun _ => .ok hx.1) fun _ => .ite (fun h => ?_) fun _ =>
      .ite (fun _ => .ok hx.1) fun _ => .error (by simp)
    · have hlt := htok (by intro e; rw [e] at h; simp at h) (by intro e; rw [e] at h; simp at h)
      exact Good.bind (skipCurrentEx_good f _ _) fun y hy => hstep _ _ (by omega)
    · exact hstep _ _ (htok (by intro e; rw [e] at h; simp at h) (by intro e; rw [e] at h; simp at h))
    · exact hstep _ _ (htok (by intro e; rw [e] at h; cases h) (by intro e; rw [e] at h; cases h))

theorem valueTokenEx_good (f : FlagsEx) : ∀ (fuel : Nat) (r : Reader), r.rest.length < fuel →
    Good (valueTokenEx f fuel r) (fun x => x.2.rest.length ≤ r.rest.length) := by
  intro fuel
  induction fuel with
  | zero => intro _ h; omega
  | succ fuel ih =>
    intro r hf
    rw [valueTokenEx]
    refine Good.bind (nextTokenEx_good f .object r) fun x hx => .ite (fun h => ?_) fun _ => .ok hx.1
    rcases hx.2 with h' | ⟨h', _⟩ | h'
    · rw [h] at h'; cases h'
    · rw [h] at h'; cases h'
    · exact (ih _ (by omega)).mono fun y hy => Nat.le_trans hy hx.1

theorem copyUnescaped_good (str : List Byte) (size : Nat) : Good (copyUnescaped str size) (fun _ => True) := by
  unfold copyUnescaped
  exact .ite (fun _ => .ok trivial) fun _ => copyLoop_good _ _ _ _ _ (Nat.lt_succ_self _)

theorem copyConcatLoop_good (quot : Byte) (cap : Nat) : ∀ (fuel : Nat) (p : List Byte) (sz : Nat) (add : Bool) (out : List Byte) (size : Nat), sz < fuel →
    Good (copyConcatLoop quot cap fuel p sz add out size) (fun _ => True) := by
  intro fuel
  induction fuel with
  | zero => intro _ _ _ _ _ h; omega
  | succ fuel ih =>
    intro p sz add out size hf
    rw [copyConcatLoop]
    split
    · unfold concatEnd
      refine Good.bind (Q := fun _ => True) (.ite (fun _ => put_good _ _ _) fun _ => .ok trivial) fun out _ => ?_
      exact .ite (fun _ => .ite (fun _ => .ok trivial) fun _ => .error (by simp)) fun _ => .ok trivial
    · rename_i i hi
      have h1 := memchr_lt hi
      rw [List.length_take] at h1
      dsimp only
      exact .ite (fun _ => Good.bind (copyUnescaped_good _ _) fun part _ => ih _ _ _ _ _ (by omega)) fun _ => ih _ _ _ _ _ (by omega)

theorem copyConcatenated_good (str : List Byte) (size : Nat) : Good (copyConcatenated str size) (fun _ => True) := by
  unfold copyConcatenated
  split
  · exact .ok trivial
  · exact .ite (fun _ => .ok trivial) fun _ => copyConcatLoop_good _ _ _ _ _ _ _ _ (by omega)

theorem text_good (v : View) : Good v.text (fun _ => True) := by
  unfold View.text
  exact .ite (fun _ => .ok trivial) fun _ => .error (by simp)

theorem readScalarEx_good (a : Alloc) (r : Reader) : Good (readScalarEx a r) (fun _ => True) := by
  unfold readScalarEx
  refine .ite (fun _ => Good.bind (Q := fun _ => True) ?_ fun x _ => .ok trivial) fun _ =>
    .ite (fun _ => Good.bind (Q := fun _ => True) ?_ fun x _ => .ok trivial) fun _ => .ite (fun _ => .ok trivial) fun _ => .ok trivial
  · unfold allocateString
    refine Good.bind (text_good _) fun str _ => ?_
    split
    · exact .ok trivial
    · exact Good.bind (copyUnescaped_good _ _) fun out _ => .ok trivial
  · unfold allocateConcatenated
    refine Good.bind (text_good _) fun str _ => ?_
    split
    · exact .ok trivial
    · exact Good.bind (copyConcatenated_good _ _) fun out _ => .ok trivial

theorem readLoopEx_good (f : FlagsEx) : ∀ (fuel : Nat) (isObj : Bool) (count : Nat) (acc : List (View × JVal)) (a : Alloc) (r : Reader),
    r.rest.length < fuel → Good (readLoopEx f fuel isObj count acc a r) (fun z => z.reader.rest.length ≤ r.rest.length) := by
  intro fuel
  induction fuel with
  | zero => intro _ _ _ _ _ h; omega
  | succ fuel ih =>
    intro isObj count acc a r hf
    have hitem : ∀ (a : Alloc) (y : Tok × Reader), y.2.rest.length < fuel →
        Good (itemEx f fuel a y) (fun z => z.reader.rest.length ≤ y.2.rest.length) := by
      intro a y hy
      unfold itemEx
      refine .ite (fun _ => ?_) fun _ => .ite (fun _ => Good.bind (readScalarEx_good a y.2) fun v _ => .ok (Nat.le_refl _)) fun _ =>
        .ite (fun _ => .ok (Nat.le_refl _)) fun _ => .error (by simp)
      refine Good.bind (countLoopEx_good f _ _ _ _ (Nat.lt_succ_self _)) fun c hc => .ite (fun _ => .ok hc) fun _ => ?_
      split
      · exact .ok (Nat.le_refl _)
      · exact Good.bind (ih _ _ _ _ _ hy) fun z hz => .ok hz
    rw [readLoopEx_eq]
    refine Good.bind (nextTokenEx_good f _ r) fun x hx => ?_
    have htok : x.1 ≠ .error → x.1 ≠ .eof → x.2.rest.length < r.rest.length := by
      intro h1 h2
      rcases hx.2 with h | ⟨h, _⟩ | h
      · exact absurd h h1
      · exact absurd h h2
      · exact h.1
    refine .ite (fun _ => .ok hx.1) fun _ => .ite (fun h => ?_) fun _ => .ite (fun h => .ite (fun _ => ?_) fun _ => .error (by simp)) fun _ =>
      .ite (fun _ => .ok hx.1) fun _ => .error (by simp)
    · have := htok (by rw [h]; simp) (by rw [h]; simp)
      exact (ih _ _ _ _ _ (by omega)).mono fun z hz => by omega
    · have hlt := htok (by intro e; rw [e] at h; simp at h) (by intro e; rw [e] at h; simp at h)
      refine Good.bind (Q := fun y => y.2.rest.length ≤ x.2.rest.length) ?_ fun y hy => ?_
      · exact .ite (fun _ => valueTokenEx_good f _ _ (Nat.lt_succ_self _)) fun _ => .ok (Nat.le_refl _)
      · refine Good.bind (hitem a y (by omega)) fun z hz => .ite (fun _ => .ok (by dsimp only; omega)) fun _ => ?_
        exact (ih _ _ _ _ _ (by omega)).mono fun z' hz' => by omega

theorem readContainerEx_good (f : FlagsEx) (isObj : Bool) (a : Alloc) (r : Reader) : Good (readContainerEx f isObj a r) (fun _ => True) := by
  unfold readContainerEx
  refine Good.bind (countLoopEx_good f _ _ _ _ (Nat.lt_succ_self _)) fun c hc => .ite (fun _ => .ok trivial) fun _ => ?_
  split
  · exact .ok trivial
  · exact Good.bind (readLoopEx_good f _ _ _ _ _ _ (Nat.lt_succ_self _)) fun z hz => .ok trivial

theorem makeDocumentEx_good (f : FlagsEx) (a : Alloc) (s : List Byte) : Good (makeDocumentEx f a s) (fun _ => True) := by
  unfold makeDocumentEx readRootTypeEx
  refine Good.bind (rootLoopEx_good f _ _ (Nat.lt_succ_self _)) fun x _ => ?_
  refine Good.bind (Q := fun _ => True) ?_ fun z _ => ?_
  · split
    · exact readContainerEx_good _ _ _ _
    · exact readContainerEx_good _ _ _ _
    · exact Good.bind (readScalarEx_good _ _) fun v _ => .ok trivial
    · exact .ok trivial
  · refine Good.bind (Q := fun _ => True) ?_ fun r _ => Good.bind .assert fun _ _ => .ite (fun _ => .ok trivial) fun _ => .ok trivial
    refine .ite (fun _ => ?_) fun _ => .ok trivial
    unfold validUntilEofEx
    exact .ite (fun _ => .ok trivial) fun _ => eofLoopEx_good f _ _ (Nat.lt_succ_self _)

end Tm.Json
