import Verif.Dbl.PrintEmit
/-! The integer part and the fraction in `print_double`. -/
namespace Tm.Dbl
open Tm.Conv Tm.Num

variable {buf : List Byte} {dest maxlen : Nat}

theorem advance_st {t s : List Byte} {b : List Byte} {ec : Errc} (h : (t ++ s).length ≤ maxlen) (hb : b = (st buf dest maxlen (t ++ s)).buf) :
    advance (st buf dest maxlen t) (⟨s.length, ec⟩, b) = .ok (st buf dest maxlen (t ++ s)) := by
  rw [List.length_append] at h
  rw [advance, if_neg (by simp [st]; omega), hb]
  simp [st, Nat.add_assoc, Nat.sub_sub]

theorem advance_full {t : List Byte} {b : List Byte} {ec : Errc} (h : t.length ≤ maxlen) :
    advance (st buf dest maxlen t) (⟨maxlen - t.length, ec⟩, b) = .ok ⟨b, dest + maxlen, 0⟩ := by
  rw [advance, if_neg (by simp [st])]
  simp [st]; omega

theorem done_st {t : List Byte} {ec : Errc} (h : t.length ≤ maxlen) :
    done maxlen (st buf dest maxlen t) ec = (⟨t.length, ec⟩, splice buf dest t) := by
  simp only [done, st]; congr 2; omega

theorem step_fit {t : List Byte} {v v' : F} {m : Int} {w0 w n fuel : Nat} {a : ℚ} (hroom : dest + maxlen ≤ buf.length) (hm : 0 < m)
    (ht : t.length < maxlen) (hp : nextPart v m w0 = .ok (.fin a, v', w)) (h1 : (n : ℚ) ≤ a) (h2 : a < n + 1) (hn : n < 2 ^ 64)
    (hfit : (t ++ padded w n).length ≤ maxlen) :
    integerPart maxlen (fuel + 1) (st buf dest maxlen t) v m w0
      = integerPart maxlen fuel (st buf dest maxlen (t ++ padded w n)) v' (m - 14) 14 := by
  rw [integerPart, if_pos ⟨hm, by simp [st]; omega⟩, hp, ok_bind, toU64_eq h1 h2 hn, ok_bind, zeroPadded_fit hroom hn hfit, ok_bind,
    advance_st hfit rfl, ok_bind, if_neg (by simp)]

theorem step_full {t : List Byte} {v v' : F} {m : Int} {w0 w n fuel : Nat} {a : ℚ} (hroom : dest + maxlen ≤ buf.length) (hm : 0 < m)
    (ht : t.length < maxlen) (hp : nextPart v m w0 = .ok (.fin a, v', w)) (h1 : (n : ℚ) ≤ a) (h2 : a < n + 1) (hn : n < 2 ^ 64)
    (hfull : maxlen < (t ++ padded w n).length) :
    ∃ b, integerPart maxlen (fuel + 1) (st buf dest maxlen t) v m w0 = .ok (.inl (⟨maxlen, .eoverflow⟩, b)) ∧
      SameOutside buf b dest maxlen := by
  obtain ⟨b, hb, hs⟩ := zeroPadded_full hroom hn ht.le hfull
  rw [integerPart, if_pos ⟨hm, by simp [st]; omega⟩, hp, ok_bind, toU64_eq h1 h2 hn, ok_bind, hb, ok_bind, advance_full ht.le, ok_bind,
    if_pos (by simp)]
  exact ⟨b, by simp [done], hs⟩

theorem integerPart_end {t : List Byte} {v : F} {m : Int} {w0 fuel : Nat} (hm : m ≤ 0) :
    integerPart maxlen (fuel + 1) (st buf dest maxlen t) v m w0 = .ok (.inr (st buf dest maxlen t, v)) := by
  rw [integerPart, if_neg (by omega), if_neg (by omega)]

theorem integerPart_room {t : List Byte} {v : F} {m : Int} {w0 fuel : Nat} (hm : 0 < m) (ht : t.length = maxlen) :
    integerPart maxlen (fuel + 1) (st buf dest maxlen t) v m w0 = .ok (.inl (⟨maxlen, .eoverflow⟩, (st buf dest maxlen t).buf)) := by
  rw [integerPart, if_neg (by simp [st]; omega), if_pos ⟨hm, by simp [st]; omega⟩]
  simp [done, st, ht]

theorem text_eq_padded {n : Nat} : padded (text 10 false n).length n = text 10 false n := by simp [padded]
theorem padded_zero {n : Nat} : padded 0 n = text 10 false n := by simp [padded]

theorem text_split {n k : Nat} (hk : k = 1 ∨ k = 2) (h : 10 ^ k ≤ n) : text 10 false n = text 10 false (n / 10 ^ k) ++ padded k (n % 10 ^ k) := by
  have h48 : (48 : Byte) = digitChar false 0 := rfl
  rcases hk with rfl | rfl
  · rw [text_ge (by decide) (by omega)]
    simp only [pow_one]
    rw [padded, text_lt (n := n % 10) (by omega)]
    simp
  · rw [text_two (by decide) (by omega), show n / 10 ^ 2 = n / 10 / 10 by omega]
    congr 1
    rw [padded]
    by_cases h10 : n % 10 ^ 2 < 10
    · rw [text_lt h10, h48]
      simp
      constructor
      · congr 1; omega
      · congr 1; omega
    · rw [text_ge (by decide) (n := n % 10 ^ 2) (by omega), text_lt (n := n % 10 ^ 2 / 10) (by omega)]
      simp
      congr 1; omega

/-- What printing the integer part gives. -/
def IntPart (buf : List Byte) (dest maxlen : Nat) (t : List Byte) (v : F) (r : C ((ConvResult × List Byte) ⊕ (Out × F))) : Prop :=
  if t.length ≤ maxlen then r = .ok (.inr (st buf dest maxlen t, v))
  else ∃ b, r = .ok (.inl (⟨maxlen, .eoverflow⟩, b)) ∧ SameOutside buf b dest maxlen

theorem integerPart_eq {t : List Byte} {q : ℚ} {n j : Nat} (hroom : dest + maxlen ≤ buf.length) (ht : t.length < maxlen)
    (hq : Representable q) (hlt : q < 2 ^ 53) (h1 : (n : ℚ) ≤ q) (h2 : q < n + 1) (hj : (text 10 false n).length = j + 1) :
    IntPart buf dest maxlen (t ++ text 10 false n) (.fin (q - n))
      (integerPart maxlen 64 (st buf dest maxlen t) (.fin q) ((j : ℤ) + 1) 0) := by
  have hn : n < 2 ^ 53 := by
    have : (n : ℚ) < ((2 ^ 53 : ℕ) : ℚ) := by push_cast; linarith
    exact_mod_cast this
  have hsub : ∀ k : ℕ, (k : ℚ) ≤ q → (F.fin q).subS (.fin k) = .fin (q - k) := by
    intro k hk
    rw [F.subS, rndS_nonneg (by linarith), rnd_rep (rep_sub hq hlt hk)]
    refine le_trans (b := 2 ^ 53) ?_ (pow_two_le (by norm_num))
    have : (0 : ℚ) ≤ k := by positivity
    linarith
  unfold IntPart
  by_cases hd : j + 1 ≤ 14
  · have hp : nextPart (.fin q) ((j : ℤ) + 1) 0 = .ok (.fin q, .fin (q - n), j + 1) := by
      rw [nextPart, if_neg (by omega), toU64_eq h1 h2 (by omega), ok_bind, ofU64_eq (by omega), rnd_rep (rep_nat hn.le) (by
        refine le_trans h1 (le_trans hlt.le (pow_two_le (by norm_num)))), hsub n h1]
      congr 3
    have hpad : padded (j + 1) n = text 10 false n := by rw [← hj]; exact text_eq_padded
    split
    · rename_i hfit
      rw [show (64 : ℕ) = 63 + 1 from rfl, step_fit hroom (by omega) ht hp h1 h2 (by omega) (by rw [hpad]; exact hfit), hpad,
        integerPart_end (by omega)]
    · rename_i hfull
      exact step_full (fuel := 63) hroom (by omega) ht hp h1 h2 (by omega) (by rw [hpad]; omega)
  · have hjn : j ≤ 15 := by
      have := (numeral_length_le_iff 10 n 16 (by decide) (by decide)).mpr (by omega)
      rw [← text_length 10 false n] at this
      omega
    obtain ⟨k, hk, hjk⟩ : ∃ k, (k = 1 ∨ k = 2) ∧ j + 1 = 14 + k := ⟨j + 1 - 14, by omega, by omega⟩
    have hnk : 10 ^ (13 + k) ≤ n := by
      by_contra hc
      have := (numeral_length_le_iff 10 n (13 + k) (by decide) (by omega)).mpr (by omega)
      rw [← text_length 10 false n] at this
      omega
    have hk10 : 10 ^ k ≤ n := le_trans (Nat.pow_le_pow_right (by norm_num) (by omega)) hnk
    have hd0 : (0 : ℚ) < 10 ^ k := by positivity
    set Q := n / 10 ^ k with hQ
    have hQ1 : Q * 10 ^ k ≤ n := Nat.div_mul_le_self n (10 ^ k)
    have hQ2 : n < (Q + 1) * 10 ^ k := by
      have := Nat.lt_div_mul_add (a := n) (b := 10 ^ k) (by positivity)
      rw [Nat.add_mul, Nat.one_mul]; exact this
    have hQq : (Q : ℚ) * 10 ^ k ≤ q := by
      have : ((Q * 10 ^ k : ℕ) : ℚ) ≤ n := by exact_mod_cast hQ1
      push_cast at this; linarith
    have hQq2 : q < ((Q : ℚ) + 1) * 10 ^ k := by
      have : ((n + 1 : ℕ) : ℚ) ≤ (((Q + 1) * 10 ^ k : ℕ) : ℚ) := by exact_mod_cast hQ2
      push_cast at this; linarith
    have hQpos : 1 ≤ Q := by rw [hQ]; exact Nat.one_le_div_iff (by positivity) |>.mpr hk10
    have hQle : Q ≤ n := le_trans (Nat.le_mul_of_pos_right Q (by positivity)) hQ1
    have hbig : q / 10 ^ k ≤ 2 ^ 1000 := by
      refine le_trans (b := (Q : ℚ) + 1) ?_ (le_trans (b := 2 ^ 54) ?_ (pow_two_le (by norm_num)))
      · rw [div_le_iff₀ hd0]; exact hQq2.le
      · have : ((Q + 1 : ℕ) : ℚ) ≤ ((2 ^ 54 : ℕ) : ℚ) := by
          have : Q + 1 ≤ 2 ^ 54 := by omega
          exact_mod_cast this
        push_cast at this; exact this
    have h0 : 0 ≤ q / 10 ^ k := div_nonneg (rep_nonneg hq) hd0.le
    obtain ⟨r, r1, -, r3, -⟩ := rnd_small h0 hbig
    clear hbig
    have hr1 : (Q : ℚ) ≤ r := r3 _ (rep_nat (by omega)) (by rw [le_div_iff₀ hd0]; exact hQq)
    have hrep : Representable (((Q + 1 : ℕ) : ℚ) * 10 ^ k) := by
      have := rep_even (n := (Q + 1) * 10 ^ k) (by rcases hk with rfl | rfl <;> omega) (by
        rcases hk with rfl | rfl <;> omega)
      push_cast at this ⊢
      exact this
    have hr2 : r < Q + 1 := by
      have := div_lt (y := ((Q + 1 : ℕ) : ℚ)) hq (rep_nat (by omega)) hrep hd0 (by push_cast; linarith [show (0 : ℚ) ≤ Q by positivity])
        (by push_cast; exact hQq2) r1
      push_cast at this; exact this
    have hp : nextPart (.fin q) ((j : ℤ) + 1) 0 = .ok (.fin r, .fin (q - (Q * 10 ^ k : ℕ)), 0) := by
      rw [nextPart, if_pos (by omega), show -((j : ℤ) + 1 - 14) = -(k : ℤ) by omega, pow10_div (rep_nonneg hq) (by omega), ok_bind, r1,
        toU64_eq hr1 hr2 (by omega), ok_bind, ofU64_eq (by omega), rnd_nat (by omega), show ((j : ℤ) + 1 - 14) = (k : ℤ) by omega,
        pow10_mul (by positivity) (by omega), ok_bind]
      have : (Q : ℚ) * 10 ^ k = ((Q * 10 ^ k : ℕ) : ℚ) := by push_cast; rfl
      rw [this, rnd_nat (by omega), hsub _ (by rw [← this]; exact hQq)]
    have hmod : n % 10 ^ k = n - Q * 10 ^ k := by
      have := Nat.div_add_mod n (10 ^ k)
      rw [← hQ, Nat.mul_comm] at this
      omega
    have hcast : ((n - Q * 10 ^ k : ℕ) : ℚ) = n - (Q * 10 ^ k : ℕ) := by rw [Nat.cast_sub hQ1]
    have g1 : ((n % 10 ^ k : ℕ) : ℚ) ≤ q - (Q * 10 ^ k : ℕ) := by rw [hmod, hcast]; linarith
    have g2 : q - (Q * 10 ^ k : ℕ) < ((n % 10 ^ k : ℕ) : ℚ) + 1 := by rw [hmod, hcast]; linarith
    have g3 : Representable (q - (Q * 10 ^ k : ℕ)) := rep_sub hq hlt (by push_cast; exact hQq)
    have hp2 : nextPart (.fin (q - (Q * 10 ^ k : ℕ))) (k : ℤ) 14 = .ok (.fin (q - (Q * 10 ^ k : ℕ)), .fin (q - n), k) := by
      have hm53 : n % 10 ^ k ≤ 2 ^ 53 := by omega
      rw [nextPart, if_neg (by omega), toU64_eq g1 g2 (by omega), ok_bind, ofU64_eq (by omega), rnd_nat hm53, F.subS,
        rndS_nonneg (by linarith)]
      have e : q - (Q * 10 ^ k : ℕ) - ((n % 10 ^ k : ℕ) : ℚ) = q - n := by rw [hmod, hcast]; ring
      rw [e, rnd_rep (rep_sub hq hlt h1)]
      · congr 3
      · refine le_trans (b := 2 ^ 53) ?_ (pow_two_le (by norm_num))
        have : (0 : ℚ) ≤ n := by positivity
        linarith
    have hsplit := text_split hk hk10
    rw [← hQ] at hsplit
    have hnext : ((j : ℤ) + 1 - 14) = (k : ℤ) := by omega
    rw [hsplit, ← List.append_assoc]
    by_cases hf1 : (t ++ padded 0 Q).length ≤ maxlen
    · rw [show (64 : ℕ) = 63 + 1 from rfl, step_fit hroom (by omega) ht hp hr1 hr2 (by omega) hf1, hnext, padded_zero]
      rw [padded_zero] at hf1
      by_cases hf2 : (t ++ text 10 false Q).length = maxlen
      · rw [if_neg (by
          rw [List.length_append, hf2, padded_length]
          have := text_pos 10 (n % 10 ^ k) (by decide) false
          omega), show (63 : ℕ) = 62 + 1 from rfl, integerPart_room (by omega) hf2]
        exact ⟨_, rfl, st_same hroom hf2.le⟩
      · split
        · rename_i hfit
          rw [show (63 : ℕ) = 62 + 1 from rfl, step_fit hroom (by omega) (by omega) hp2 g1 g2 (by omega) hfit,
            integerPart_end (by omega)]
        · rename_i hfull
          exact step_full (fuel := 62) hroom (by omega) (by omega) hp2 g1 g2 (by omega) (by omega)
    · rw [if_neg (by
        rw [padded_zero] at hf1
        rw [List.length_append]; omega)]
      exact step_full (fuel := 63) hroom (by omega) ht hp hr1 hr2 (by omega) (by omega)

end Tm.Dbl
