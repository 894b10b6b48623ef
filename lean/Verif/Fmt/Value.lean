import Verif.Fmt.Printer
/-! # Values whose size is not known before they are printed -/
namespace Tm.Fmt
open Tm.Num Tm.Conv Tm.Dbl

/-- The function writes `t` if there is room for it, and otherwise reports an overflow. -/
structure Writes (t : List Byte) (formatted : Formatted) : Prop where
  fits : ∀ b d m, d + m ≤ b.length → t.length ≤ m → formatted b d m = .ok (⟨t.length, .ok⟩, splice b d t)
  full : ∀ b d m, d + m ≤ b.length → m < t.length → ∃ n b', formatted b d m = .ok (⟨n, .eoverflow⟩, b') ∧ SameOutside b b' d m

/-- The size of `t` is known. -/
def Sizes (t : List Byte) (getSize : Printer → C (ConvResult × Printer)) : Prop :=
  ∀ p : Printer, p.capacity ≤ p.data.length →
    ∃ b, getSize p = .ok (⟨t.length, .ok⟩, { p with data := b }) ∧ SameOutside p.data b 0 p.capacity

theorem growing_data {out b : List Byte} {p : Printer} {n : Nat} (h : Growing out p) (hs : SameOutside p.data b p.size n) :
    Growing out { p with data := b } := by
  obtain ⟨h1, h2, h3, h4, h5, h6⟩ := h
  refine ⟨h1, h2, h3, h4, by dsimp only; rw [hs.1]; exact h5, ?_⟩
  dsimp only
  rw [← h6]
  apply List.ext_getElem?
  intro i
  rw [List.getElem?_take, List.getElem?_take]
  split
  · exact hs.2 i (by omega)
  · rfl

theorem valueLoop_growing {alloc : Alloc} (ha : AllocOk alloc) {t out : List Byte} {formatted : Formatted} (hf : Writes t formatted) (fuel : Nat)
    (p : Printer) (h : Growing out p) (hfuel : t.length < fuel + (p.capacity - p.size)) :
    (∃ q, valueLoop alloc formatted (fuel + 1) p = .ok ({ q with data := splice q.data q.size t }, .inr ⟨t.length, .ok⟩) ∧ Growing out q ∧
      q.size + t.length ≤ q.capacity) ∨
    (∃ q, valueLoop alloc formatted (fuel + 1) p = .ok (q, .inl false) ∧ q.ec = .enomem ∧ q.data.take q.size = out ∧ Refuses alloc) := by
  induction fuel generalizing p with
  | zero =>
    have hc := h.cap
    have hd := h.data
    rw [valueLoop, remaining_ok h.cap, ok_bind, hf.fits _ _ _ (by omega) (by omega), ok_bind]
    exact .inl ⟨p, rfl, h, by omega⟩
  | succ fuel ih =>
    have hc := h.cap
    have hd := h.data
    rw [valueLoop, remaining_ok h.cap, ok_bind]
    by_cases hfit : t.length ≤ p.capacity - p.size
    · rw [hf.fits _ _ _ (by omega) (by omega), ok_bind]
      exact .inl ⟨p, rfl, h, by omega⟩
    · obtain ⟨n, b, e1, e2⟩ := hf.full p.data p.size (p.capacity - p.size) (by omega) (by omega)
      rw [e1, ok_bind]
      dsimp only
      rw [if_neg (by decide), if_pos (.inl rfl)]
      simp only [h.grow, Bool.not_true, Bool.false_eq_true, if_false, reduceCtorEq]
      have hg := growing_data h e2
      rcases grow_spec ha hg 0 with ⟨q, g1, g2, -, g3, -⟩ | ⟨q, g1, g2⟩
      · rw [show (grow alloc { data := b, size := p.size, necessary := p.necessary, capacity := p.capacity, canGrow := true, owns := p.owns, ec := p.ec, calls := p.calls } 0)
            = grow alloc { p with data := b } 0 by rw [← h.grow], g1, ok_bind]
        simp only [Bool.not_true, Bool.false_eq_true, if_false]
        refine ih q g2 ?_
        dsimp only at g3
        have := g2.size
        have := h.size
        omega
      · rw [show (grow alloc { data := b, size := p.size, necessary := p.necessary, capacity := p.capacity, canGrow := true, owns := p.owns, ec := p.ec, calls := p.calls } 0)
            = grow alloc { p with data := b } 0 by rw [← h.grow], g1, ok_bind]
        exact .inr ⟨q, rfl, g2⟩

theorem printValue_appends {alloc : Alloc} {t : List Byte} {formatted : Formatted} {getSize : Printer → C (ConvResult × Printer)}
    (hf : Writes t formatted) (hs : Sizes t getSize) (ht : t.length < 999) : Appends alloc t (printValue alloc formatted getSize) := by
  have hend : ∀ {buf : List Byte} {len : Nat} {out : List Byte} {p : Printer} {r : Errc}, Fixed buf len out p → p.ec = .erange →
      len < out.length + t.length →
      ∃ p', valueEnd getSize p r = .ok (p', true) ∧ Fixed buf len (out ++ t) p' := by
    intro buf len out p r h hec hlt
    obtain ⟨b, e1, e2⟩ := hs p (by rw [h.cap, h.same.1]; exact h.inside)
    rw [valueEnd, if_pos hec, e1, ok_bind]
    dsimp only
    rw [if_neg (by simp)]
    refine ⟨_, rfl, h.grow, h.cap, by simp [h.nec], h.size, h.inside, ?_, .inr ⟨hec, by simpa using hlt⟩⟩
    exact sameOutside_trans h.same e2 (by rw [h.cap]; omega)
  constructor
  · intro buf len out p h
    have hd : p.data.length = buf.length := h.same.1
    have hin := h.inside
    have hsz := h.size
    have hcap := h.cap
    rw [printValue]
    rcases h.state with ⟨e1, e2, e3⟩ | ⟨e1, e2⟩
    · rw [if_pos e1, valueLoop, remaining_ok (by omega), ok_bind]
      by_cases hfit : t.length ≤ p.capacity - p.size
      · rw [hf.fits _ _ _ (by omega) hfit, ok_bind]
        simp only [if_true, ok_bind]
        rw [valueEnd, if_neg (by dsimp only; rw [e1]; decide)]
        exact ⟨_, rfl, fixed_put h (by omega)⟩
      · obtain ⟨n, b, f1, f2⟩ := hf.full p.data p.size (p.capacity - p.size) (by omega) (by omega)
        rw [f1, ok_bind]
        simp only [reduceCtorEq, if_false, true_or, if_true, h.grow, Bool.not_false, ok_bind]
        have h' : ∃ p', valueEnd getSize { p with data := b, ec := .erange, canGrow := false } Errc.eoverflow = .ok (p', true) ∧
            Fixed buf len (out ++ t) p' := by
          obtain ⟨c, g1, g2⟩ := hs { p with data := b, ec := .erange, canGrow := false } (by dsimp only; rw [f2.1]; omega)
          rw [valueEnd, if_pos rfl, g1, ok_bind]
          dsimp only
          rw [if_neg (by simp)]
          refine ⟨_, rfl, rfl, h.cap, by simp [h.nec], h.size, h.inside, ?_, .inr ⟨rfl, by simp; omega⟩⟩
          exact sameOutside_trans (sameOutside_trans h.same f2 (by omega)) g2 (by dsimp only; omega)
        exact h'
    · rw [if_neg (by rw [e1]; decide)]
      exact hend h e1 (by omega)
  · intro ha out p h
    rw [printValue, if_pos h.ec]
    rcases valueLoop_growing ha hf 999 p h (by omega) with ⟨q, e1, e2, e3⟩ | ⟨q, e1, e2⟩
    · rw [e1, ok_bind]
      simp only [if_true]
      rw [valueEnd, if_neg (by dsimp only; rw [e2.ec]; decide)]
      exact .inl ⟨_, rfl, growing_put e2 e3 _⟩
    · rw [e1, ok_bind]
      exact .inr ⟨q, rfl, e2⟩

/-! ## truth values -/

theorem printBool_appends (alloc : Alloc) {f : PrintFormat} {b : Bool} (hw : f.width.toNat ≤ (boolWord f b).length) :
    Appends alloc (boolWord f b) (printValue alloc (fun buf dest maxlen => formattedBool buf dest maxlen f b) (boolSize f b)) := by
  refine printValue_appends ⟨fun c d m h1 h2 => ?_, fun c d m h1 h2 => ?_⟩ (fun p h => ?_) ?_
  · rw [formattedBool_spec hw h1, if_pos h2]
  · exact ⟨m, c, by rw [formattedBool_spec hw h1, if_neg (by omega)], sameOutside_refl _ _ _⟩
  · refine ⟨p.data, ?_, sameOutside_refl _ _ _⟩
    rw [boolSize, boolWord]
    cases f.boolAsNumber <;> cases b <;> cases f.lowercase <;> rfl
  · rw [boolWord]
    cases f.boolAsNumber <;> cases b <;> cases f.lowercase <;> decide

end Tm.Fmt
