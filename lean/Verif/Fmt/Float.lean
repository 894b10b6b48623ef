import Verif.Fmt.Value
/-! # Formatted floating point numbers -/
namespace Tm.Fmt
open Tm.Num Tm.Conv Tm.Dbl

theorem writesDouble_pos {v : Double} {flags : BitVec 32} {precision : Int} {d : List Byte} (h : WritesDouble v flags precision d) :
    0 < d.length := by
  have := h [] 0 0 (by simp)
  rw [printDouble, if_pos rfl, Printed] at this
  by_contra hc
  rw [if_pos (by omega)] at this
  injection this with h1
  injection h1 with h2
  simp at h2

theorem splice_self {b d : List Byte} {p : Nat} (h : p + d.length ≤ b.length) (hd : ∀ i, p ≤ i → i < p + d.length → b[i]? = d[i - p]?) :
    splice b p d = b := by
  apply List.ext_getElem?
  intro i
  rw [splice_get _ _ _ h]
  split
  · rename_i hi; exact (hd i hi.1 hi.2).symm
  · rfl

theorem splice_over {a b t : List Byte} {p : Nat} (h : SameOutside a b p t.length) (hp : p + t.length ≤ a.length) :
    splice b p t = splice a p t := by
  apply List.ext_getElem?
  intro i
  rw [splice_get _ _ _ (by rw [h.1]; exact hp), splice_get _ _ _ hp]
  split
  · rfl
  · exact h.2 i (by omega)

theorem sameOutside_put {a b t : List Byte} {lo n p : Nat} (h : SameOutside a b lo n) (hl : lo + n ≤ a.length) (h1 : lo ≤ p) (h2 : p + t.length ≤ lo + n) :
    SameOutside a (splice b p t) lo n := by
  have hb : b.length = a.length := h.1
  refine ⟨by rw [splice_length _ _ _ (by omega), hb], fun i hi => ?_⟩
  rw [splice_get _ _ _ (by omega), if_neg (by omega)]
  exact h.2 i hi

/-- There is room: the digits are moved to their place and decorated. -/
theorem moveAndDecorate_fits {f : PrintFormat} (hp : f.OnePrefix) {negative : Bool} {d buf : List Byte} {dest maxlen : Nat}
    (hroom : dest + maxlen ≤ buf.length) (hfit : (layoutOf f negative d).length ≤ maxlen) :
    moveAndDecorate (splice buf (dest + (signBytes f negative).length) d) dest maxlen f ⟨d.length, .ok⟩ negative
      = .ok (⟨(layoutOf f negative d).length, .ok⟩, splice buf dest (layoutOf f negative d)) := by
  have hse := sizesOf_eq hp negative d
  have hdec := congrArg PrintSizes.decorated hse
  have hsz := congrArg PrintSizes.size hse
  have hdg := congrArg PrintSizes.digits hse
  dsimp only at hdec hsz hdg
  have hle : (sizesOf d.length f negative).decorated ≤ (sizesOf d.length f negative).size := by
    rw [sizesOf]; dsimp only; split <;> omega
  set S := signBytes f negative with hS
  have hsg : (if (negative || f.sign) = true then 1 else 0) = S.length := by
    rw [hS, signBytes]; cases negative <;> cases f.sign <;> rfl
  rw [List.length_append] at hdec
  rw [moveAndDecorate, if_neg (by simp)]
  dsimp only
  rw [hsg]
  generalize hpos : (if (decide (f.width ≤ 0) || f.leftJustify) = true then (sizesOf d.length f negative).decorated - (sizesOf d.length f negative).digits
    else (sizesOf d.length f negative).size - (sizesOf d.length f negative).digits) = pos
  have hposle : S.length ≤ pos ∧ pos + d.length ≤ (sizesOf d.length f negative).size := by
    rw [← hpos]; split <;> omega
  -- the moved digits
  obtain ⟨b1, m1, m2, m3⟩ : ∃ b1, moveDigits (splice buf (dest + S.length) d) (dest + pos) (dest + S.length) (sizesOf d.length f negative).digits
      (decide (pos > 0 ∧ pos ≠ S.length)) = .ok b1 ∧ SameOutside buf b1 dest (layoutOf f negative d).length ∧
      ∀ i, dest + pos ≤ i → i < dest + pos + d.length → b1[i]? = d[i - (dest + pos)]? := by
    have h0 : SameOutside buf (splice buf (dest + S.length) d) dest (layoutOf f negative d).length :=
      sameOutside_put (sameOutside_refl _ _ _) (by omega) (by omega) (by omega)
    by_cases hc : pos > 0 ∧ pos ≠ S.length
    · rw [moveDigits, if_pos (by simpa using hc), memmove, if_pos (by rw [splice_length _ _ _ (by omega)]; omega), hdg]
      have hrd : List.take d.length (List.drop (dest + S.length) (splice buf (dest + S.length) d)) = d := by
        rw [splice, List.append_assoc, List.drop_append_of_le_length (by simp; omega), List.drop_eq_nil_of_le (by simp), List.nil_append,
          List.take_left]
      rw [hrd, memcpy_spec _ _ _ (by rw [splice_length _ _ _ (by omega)]; omega)]
      refine ⟨_, rfl, sameOutside_put h0 (by omega) (by omega) (by omega), fun i h1 h2 => ?_⟩
      rw [splice_get _ _ _ (by rw [splice_length _ _ _ (by omega)]; omega), if_pos ⟨h1, h2⟩]
    · rw [moveDigits, if_neg (by simpa using hc)]
      have : pos = S.length := by omega
      refine ⟨_, rfl, h0, fun i h1 h2 => ?_⟩
      rw [splice_get _ _ _ (by omega), if_pos ⟨by omega, by omega⟩, this]
  rw [m1, ok_bind, if_neg (by omega)]
  obtain ⟨b, d1, d2, d3, d4, d5⟩ := decoration_digits hp negative d (buf := b1) (dest := dest) (maxlen := maxlen) (by rw [m2.1]; exact hroom) hfit
  have hpos' : (if (f.leftJustify || decide (f.width ≤ 0)) = true then (sizesOf d.length f negative).decorated - d.length
        else (sizesOf d.length f negative).size - d.length) = pos := by
    rw [← hpos, Bool.or_comm, hdg]
  rw [hpos'] at d3 d4 d5
  rw [d1, ok_bind, hsz]
  congr 2
  rw [← splice_over m2 (by omega), ← d3, splice_self (by rw [d2, m2.1]; omega) (fun i h1 h2 => by rw [d5 i h1 h2, m3 i h1 h2])]

theorem formattedFloat_fits {f : PrintFormat} (hp : f.OnePrefix) {v : Double} {d : List Byte}
    (hd : WritesDouble (makeUnsigned v).1 (f.flags &&& 0xFF) f.precision d) {buf : List Byte} {dest maxlen : Nat}
    (hroom : dest + maxlen ≤ buf.length) (hfit : (layoutOf f (isLess v) d).length ≤ maxlen) :
    formattedFloat buf dest maxlen f v = .ok (⟨(layoutOf f (isLess v) d).length, .ok⟩, splice buf dest (layoutOf f (isLess v) d)) := by
  have hpos := writesDouble_pos hd
  have hge : (signBytes f (isLess v)).length + d.length ≤ (layoutOf f (isLess v) d).length := by
    have h1 := congrArg PrintSizes.size (sizesOf_eq hp (isLess v) d)
    dsimp only at h1
    rw [← h1, sizesOf]
    dsimp only
    rw [decoratedSize_eq hp, List.length_append]
    split <;> omega
  have hsg : (if ((makeUnsigned v).2 || f.sign) = true then 1 else 0) = (signBytes f (isLess v)).length := by
    rw [signBytes, makeUnsigned]; cases isLess v <;> cases f.sign <;> rfl
  rw [formattedFloat, if_neg (by omega)]
  dsimp only
  rw [hsg]
  have := hd buf (dest + (signBytes f (isLess v)).length) (maxlen - (signBytes f (isLess v)).length) (by omega)
  rw [Printed, if_pos (by omega)] at this
  rw [this, ok_bind]
  exact moveAndDecorate_fits hp hroom hfit

/-- No room for the sign and the digits: an overflow, and nothing is written outside of the room. -/
theorem formattedFloat_full {f : PrintFormat} {v : Double} {d : List Byte}
    (hd : WritesDouble (makeUnsigned v).1 (f.flags &&& 0xFF) f.precision d)
    {buf : List Byte} {dest maxlen : Nat} (hroom : dest + maxlen ≤ buf.length) (hfull : maxlen < (signBytes f (isLess v) ++ d).length) :
    ∃ n b, formattedFloat buf dest maxlen f v = .ok (⟨n, .eoverflow⟩, b) ∧ SameOutside buf b dest maxlen := by
  have hsg : (if ((makeUnsigned v).2 || f.sign) = true then 1 else 0) = (signBytes f (isLess v)).length := by
    rw [signBytes, makeUnsigned]; cases isLess v <;> cases f.sign <;> rfl
  rw [formattedFloat]
  by_cases h0 : maxlen = 0
  · rw [if_pos h0]
    exact ⟨_, _, rfl, sameOutside_refl _ _ _⟩
  · rw [if_neg h0]
    dsimp only
    rw [hsg]
    have hs1 : (signBytes f (isLess v)).length ≤ 1 := by rw [signBytes]; cases isLess v <;> cases f.sign <;> decide
    rw [List.length_append] at hfull
    have := hd buf (dest + (signBytes f (isLess v)).length) (maxlen - (signBytes f (isLess v)).length) (by omega)
    rw [Printed, if_neg (by omega)] at this
    obtain ⟨b, e1, e2⟩ := this
    rw [e1, ok_bind, moveAndDecorate, if_pos (by simp)]
    exact ⟨_, _, rfl, e2.1, fun i hi => e2.2 i (by omega)⟩

theorem layoutOf_plain {f : PrintFormat} {negative : Bool} {d : List Byte} (hp : prefixBytes f = [])
    (hw : f.width.toNat ≤ (signBytes f negative ++ d).length) : layoutOf f negative d = signBytes f negative ++ d := by
  rw [layoutOf, hp]
  simp only [List.append_nil]
  rw [Nat.sub_eq_zero_of_le hw]
  cases f.leftJustify <;> cases f.padWithSpaces <;> simp

theorem printFloat_appends (alloc : Alloc) {f : PrintFormat} (hp : prefixBytes f = []) (ho : f.OnePrefix) {v : Double} {d : List Byte}
    (hd : WritesDouble (makeUnsigned v).1 (f.flags &&& 0xFF) f.precision d) (hw : f.width.toNat ≤ (signBytes f (isLess v) ++ d).length)
    (hl : d.length < 199) :
    Appends alloc (signBytes f (isLess v) ++ d)
      (printValue alloc (fun buf dest maxlen => formattedFloat buf dest maxlen f v) (floatSize f v)) := by
  have hs1 : (signBytes f (isLess v)).length ≤ 1 := by rw [signBytes]; cases isLess v <;> cases f.sign <;> decide
  have hfits : ∀ (b : List Byte) (e m : Nat), e + m ≤ b.length → (signBytes f (isLess v) ++ d).length ≤ m →
      formattedFloat b e m f v = .ok (⟨(signBytes f (isLess v) ++ d).length, .ok⟩, splice b e (signBytes f (isLess v) ++ d)) := by
    intro b e m h1 h2
    have := formattedFloat_fits ho hd h1 (by rw [layoutOf_plain hp hw]; exact h2)
    rwa [layoutOf_plain hp hw] at this
  refine printValue_appends ⟨hfits, fun b e m h1 h2 => formattedFloat_full hd h1 h2⟩ (fun p h => ?_) (by simp; omega)
  rw [floatSize]
  by_cases hc : p.capacity < 200
  · rw [if_pos hc, hfits _ _ _ (by rw [List.length_replicate]) (by rw [List.length_append]; omega), ok_bind]
    exact ⟨p.data, rfl, sameOutside_refl _ _ _⟩
  · rw [if_neg hc, hfits _ _ _ (by omega) (by simp; omega), ok_bind]
    exact ⟨_, rfl, sameOutside_put (sameOutside_refl _ _ _) (by omega) (by omega) (by simp; omega)⟩

end Tm.Fmt
