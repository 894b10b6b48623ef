import Verif.Dbl.WalkLemmas

/-! # How far a computed number is from the exact one -/

namespace Tm.Dbl
open Tm.Conv Tm.Num

/-- The factor of one rounding. -/
def u : ℚ := 1 + 2 ^ (-52 : ℤ)

theorem u_pos : 0 < u := by unfold u; positivity
theorem u_one : 1 ≤ u := by unfold u; norm_num
theorem upow_one (k : ℕ) : 1 ≤ u ^ k := one_le_pow₀ u_one
theorem upow_pos (k : ℕ) : 0 < u ^ k := pow_pos u_pos k
theorem upow_mono {j k : ℕ} (h : j ≤ k) : u ^ j ≤ u ^ k := pow_le_pow_right₀ u_one h
theorem upow_two {k : ℕ} (h : k ≤ 63) : u ^ k ≤ 2 := le_trans (upow_mono h) (by unfold u; norm_num)

/-- The two numbers differ by at most `k` factors of one rounding. -/
def Rel (k : ℕ) (f : F) (y : ℚ) : Prop := ∃ r, f = .fin r ∧ 0 ≤ y ∧ y ≤ r * u ^ k ∧ r ≤ y * u ^ k

/-- Not too great and not too small. -/
def Ranged (y : ℚ) : Prop := y = 0 ∨ ((10 : ℚ) ^ (-305 : ℤ) ≤ y ∧ y ≤ 10 ^ (305 : ℤ))

theorem low_bound : (2 : ℚ) ^ (-1022 : ℤ) * 2 ≤ 10 ^ (-305 : ℤ) := by
  rw [zpow_neg, zpow_neg, show ((1022 : ℤ)) = ((1022 : ℕ) : ℤ) by norm_num, show ((305 : ℤ)) = ((305 : ℕ) : ℤ) by norm_num, zpow_natCast,
    zpow_natCast]
  rw [inv_mul_eq_div, div_le_iff₀ (by positivity), inv_mul_eq_div, le_div_iff₀ (by positivity)]
  have : (2 * 10 ^ 305 : ℕ) ≤ 2 ^ 1022 := by decide +kernel
  exact_mod_cast this

theorem high_bound : (10 : ℚ) ^ (305 : ℤ) * 2 < 2 ^ (1023 : ℤ) := by
  rw [show ((1023 : ℤ)) = ((1023 : ℕ) : ℤ) by norm_num, show ((305 : ℤ)) = ((305 : ℕ) : ℤ) by norm_num, zpow_natCast, zpow_natCast]
  have : (10 ^ 305 * 2 : ℕ) < 2 ^ 1023 := by decide +kernel
  exact_mod_cast this

theorem rel_nonneg {k : ℕ} {f : F} {y : ℚ} (h : Rel k f y) : 0 ≤ y := h.choose_spec.2.1

theorem rel_rnd {k : ℕ} {q y : ℚ} (hk : k ≤ 63) (h0 : 0 ≤ y) (h1 : y ≤ q * u ^ k) (h2 : q ≤ y * u ^ k) (hy : Ranged y) :
    Rel (k + 1) (rnd q) y := by
  rcases hy with rfl | ⟨hlo, hhi⟩
  · have hq : q ≤ 0 := by simpa using h2
    refine ⟨0, ?_, le_refl _, by simp, by simp⟩
    rw [rnd, if_pos hq]
  · have hk2 := upow_two hk
    have hup := upow_pos k
    have hy0 : 0 < y := lt_of_lt_of_le (by positivity) hlo
    have hq0 : 0 < q := by
      by_contra hc
      have : q * u ^ k ≤ 0 := mul_nonpos_of_nonpos_of_nonneg (not_lt.mp hc) hup.le
      linarith
    have hq1 : (2 : ℚ) ^ (-1022 : ℤ) ≤ q := by
      have : y ≤ q * 2 := le_trans h1 (mul_le_mul_of_nonneg_left hk2 hq0.le)
      have := low_bound
      generalize (2 : ℚ) ^ (-1022 : ℤ) = a at *
      generalize (10 : ℚ) ^ (-305 : ℤ) = b at *
      linarith
    have hq2 : q < 2 ^ (1023 : ℤ) := by
      have : q ≤ y * 2 := le_trans h2 (mul_le_mul_of_nonneg_left hk2 h0)
      have := high_bound
      generalize (2 : ℚ) ^ (1023 : ℤ) = a at *
      generalize (10 : ℚ) ^ (305 : ℤ) = b at *
      linarith
    obtain ⟨r, hr, hd⟩ := rnd_normal hq1 hq2
    have hd' := abs_le.mp hd
    have hru : r ≤ q * u := by
      have : q * u = q + q * 2 ^ (-53 : ℤ) * 2 := by unfold u; norm_num; ring
      have h3 : 0 ≤ q * 2 ^ (-53 : ℤ) := by positivity
      rw [this]
      generalize q * 2 ^ (-53 : ℤ) = d at *
      linarith
    have hqu : q ≤ r * u := by
      have h3 : q * (1 - 2 ^ (-53 : ℤ)) ≤ r := by linarith
      have h4 : q * (1 - 2 ^ (-53 : ℤ)) * u ≤ r * u := mul_le_mul_of_nonneg_right h3 u_pos.le
      have h5 : (1 : ℚ) ≤ (1 - 2 ^ (-53 : ℤ)) * u := by unfold u; norm_num
      have h6 := mul_le_mul_of_nonneg_left h5 hq0.le
      linarith
    refine ⟨r, hr, h0, ?_, ?_⟩
    · calc y ≤ q * u ^ k := h1
        _ ≤ r * u * u ^ k := mul_le_mul_of_nonneg_right hqu hup.le
        _ = r * u ^ (k + 1) := by rw [pow_succ]; ring
    · calc r ≤ q * u := hru
        _ ≤ y * u ^ k * u := mul_le_mul_of_nonneg_right h2 u_pos.le
        _ = y * u ^ (k + 1) := by rw [pow_succ]; ring

theorem rel_mono {j k : ℕ} {f : F} {y : ℚ} (hjk : j ≤ k) (h : Rel j f y) : Rel k f y := by
  obtain ⟨r, rfl, h0, h1, h2⟩ := h
  have hr : 0 ≤ r := by
    by_contra hc
    have : r * u ^ j < 0 := mul_neg_of_neg_of_pos (not_le.mp hc) (upow_pos j)
    linarith
  exact ⟨r, rfl, h0, le_trans h1 (mul_le_mul_of_nonneg_left (upow_mono hjk) hr), le_trans h2 (mul_le_mul_of_nonneg_left (upow_mono hjk) h0)⟩

theorem rel_val_nonneg {j : ℕ} {r y : ℚ} (h0 : 0 ≤ y) (h1 : y ≤ r * u ^ j) : 0 ≤ r := by
  by_contra hc
  have : r * u ^ j < 0 := mul_neg_of_neg_of_pos (not_le.mp hc) (upow_pos j)
  linarith

theorem rel_mul {j k : ℕ} {f g : F} {y z : ℚ} (hf : Rel j f y) (hg : Rel k g z) (hjk : j + k ≤ 63) (hr : Ranged (y * z)) :
    Rel (j + k + 1) (f.mul g) (y * z) := by
  obtain ⟨a, rfl, hy, ha1, ha2⟩ := hf
  obtain ⟨b, rfl, hz, hb1, hb2⟩ := hg
  have ha := rel_val_nonneg hy ha1
  have hb := rel_val_nonneg hz hb1
  refine rel_rnd hjk (mul_nonneg hy hz) ?_ ?_ hr
  · calc y * z ≤ (a * u ^ j) * (b * u ^ k) := mul_le_mul ha1 hb1 hz (mul_nonneg ha (upow_pos j).le)
      _ = a * b * u ^ (j + k) := by rw [pow_add]; ring
  · calc a * b ≤ (y * u ^ j) * (z * u ^ k) := mul_le_mul ha2 hb2 hb (mul_nonneg hy (upow_pos j).le)
      _ = y * z * u ^ (j + k) := by rw [pow_add]; ring

theorem rel_div {j k : ℕ} {f g : F} {y z : ℚ} (hf : Rel j f y) (hg : Rel k g z) (hz0 : 0 < z) (hjk : j + k ≤ 63) (hr : Ranged (y / z)) :
    Rel (j + k + 1) (f.div g) (y / z) := by
  obtain ⟨a, rfl, hy, ha1, ha2⟩ := hf
  obtain ⟨b, rfl, hz, hb1, hb2⟩ := hg
  have ha := rel_val_nonneg hy ha1
  have hb : 0 < b := by
    rcases eq_or_lt_of_le (rel_val_nonneg hz hb1) with h | h
    · rw [← h, zero_mul] at hb1; linarith
    · exact h
  unfold F.div
  simp only [if_neg hb.ne']
  refine rel_rnd hjk (div_nonneg hy hz) ?_ ?_ hr
  · rw [div_le_iff₀ hz0]
    calc y ≤ a * u ^ j := ha1
      _ = a / b * u ^ j * b := by field_simp
      _ ≤ a / b * u ^ j * (z * u ^ k) := mul_le_mul_of_nonneg_left hb2 (mul_nonneg (div_nonneg ha hb.le) (upow_pos j).le)
      _ = a / b * u ^ (j + k) * z := by rw [pow_add]; ring
  · rw [div_le_iff₀ hb]
    calc a ≤ y * u ^ j := ha2
      _ = y / z * u ^ j * z := by field_simp
      _ ≤ y / z * u ^ j * (b * u ^ k) := mul_le_mul_of_nonneg_left hb1 (mul_nonneg (div_nonneg hy hz) (upow_pos j).le)
      _ = y / z * u ^ (j + k) * b := by rw [pow_add]; ring

theorem rel_add {k : ℕ} {f g : F} {y z : ℚ} (hf : Rel k f y) (hg : Rel k g z) (hk : k ≤ 63) (hr : Ranged (y + z)) :
    Rel (k + 1) (f.add g) (y + z) := by
  obtain ⟨a, rfl, hy, ha1, ha2⟩ := hf
  obtain ⟨b, rfl, hz, hb1, hb2⟩ := hg
  refine rel_rnd hk (add_nonneg hy hz) ?_ ?_ hr
  · rw [add_mul]; linarith
  · rw [add_mul]; linarith

theorem rel_refl {y : ℚ} (h : 0 ≤ y) : Rel 0 (.fin y) y := ⟨y, rfl, h, by simp, by simp⟩

theorem ranged_pow {n : ℕ} (h : n ≤ 305) : Ranged (10 ^ n) := by
  right
  rw [← zpow_natCast]
  exact ⟨zpow_le_zpow_right₀ (by norm_num) (by omega), zpow_le_zpow_right₀ (by norm_num) (by exact_mod_cast h)⟩

/-- Numbers in a table that are the powers of ten, each with twice the exponent of the one before. -/
def Tbl : List F → ℕ → Prop
  | [], _ => True
  | f :: fs, p => Rel 1 f (10 ^ p) ∧ Tbl fs (2 * p)

theorem rel_rnd_pow {p : ℕ} (h : p ≤ 305) : Rel 1 (rnd (10 ^ p)) (10 ^ p) :=
  rel_rnd (k := 0) (by omega) (by positivity) (by simp) (by simp) (ranged_pow h)

theorem tbl_powers : Tbl powersOfTen 1 := by
  refine ⟨?_, ?_, rel_rnd_pow (by norm_num), rel_rnd_pow (by norm_num), rel_rnd_pow (by norm_num), rel_rnd_pow (by norm_num),
    rel_rnd_pow (by norm_num), rel_rnd_pow (by norm_num), rel_rnd_pow (by norm_num), trivial⟩
  · have := rel_rnd_pow (p := 1) (by norm_num); rwa [show rnd (10 ^ 1) = rnd 10 by norm_num] at this
  · have := rel_rnd_pow (p := 2) (by norm_num); rwa [show rnd (10 ^ 2) = rnd 100 by norm_num] at this

theorem tenTo_rel (fs : List F) (p n m k : ℕ) (t : F) (ht : Tbl fs p) (hn : n < 2 ^ fs.length) (hr : Rel k t (10 ^ m))
    (hm : m + n * p ≤ 305) (hk : k + 2 * fs.length ≤ 63) : ∃ r, tenTo fs n t = .ok r ∧ Rel (k + 2 * fs.length) r (10 ^ (m + n * p)) := by
  induction fs generalizing p n m k t with
  | nil =>
    have : n = 0 := by simpa using hn
    subst this
    exact ⟨t, by simp [tenTo], by simpa using hr⟩
  | cons f fs ih =>
    obtain ⟨h1, h2⟩ := ht
    cases n with
    | zero => exact ⟨t, by simp [tenTo], by simpa using rel_mono (by omega) hr⟩
    | succ n =>
      rw [List.length_cons, pow_succ] at hn
      simp only [List.length_cons] at hk ⊢
      have hhalf : (n + 1) / 2 < 2 ^ fs.length := by omega
      have hdm := Nat.div_add_mod (n + 1) 2
      rw [tenTo]
      generalize hq : (n + 1) / 2 = q at *
      by_cases hc : (n + 1) % 2 = 1
      · rw [if_pos hc]
        have e : n + 1 = 2 * q + 1 := by omega
        have hmp : m + p + q * (2 * p) = m + (n + 1) * p := by rw [e]; ring
        have hle : m + p ≤ 305 := by
          have : 0 ≤ q * (2 * p) := Nat.zero_le _
          omega
        have hmul := rel_mul hr h1 (by omega) (by rw [← pow_add]; exact ranged_pow hle)
        rw [← pow_add] at hmul
        obtain ⟨r, hr1, hr2⟩ := ih (2 * p) q (m + p) (k + 1 + 1) (t.mul f) h2 hhalf hmul (by omega) (by omega)
        refine ⟨r, hr1, ?_⟩
        rw [hmp] at hr2
        exact rel_mono (by omega) hr2
      · rw [if_neg hc]
        have e : n + 1 = 2 * q := by omega
        have hmp : m + q * (2 * p) = m + (n + 1) * p := by rw [e]; ring
        obtain ⟨r, hr1, hr2⟩ := ih (2 * p) q m k t h2 hhalf hr (by omega) (by omega)
        refine ⟨r, hr1, ?_⟩
        rw [hmp] at hr2
        exact rel_mono (by omega) hr2

theorem pow10_rel {k : ℕ} {f : F} {y : ℚ} {e : ℤ} (hf : Rel k f y) (he : e.natAbs ≤ 305) (hk : k + 18 ≤ 63) (hr : Ranged (y * 10 ^ e)) :
    ∃ r, pow10 f e = .ok r ∧ Rel (k + 19) r (y * 10 ^ e) := by
  obtain ⟨t, ht1, ht2⟩ := tenTo_rel powersOfTen 1 e.natAbs 0 0 (.fin 1) tbl_powers (by
    refine lt_of_le_of_lt he ?_
    simp [powersOfTen]) (by simpa using rel_refl (y := 1) (by norm_num)) (by omega) (by simp [powersOfTen])
  have hlen : powersOfTen.length = 9 := rfl
  rw [hlen] at ht2
  simp only [Nat.zero_add, Nat.mul_one] at ht2
  unfold pow10
  have ha : assert (decide (e < 511)) = .ok () := by
    rw [assert, if_pos (by simp; omega)]
  rw [ha, ok_bind, ht1, ok_bind]
  by_cases hneg : e < 0
  · rw [if_pos hneg]
    have hz : (10 : ℚ) ^ e = (10 ^ e.natAbs)⁻¹ := by
      rw [← zpow_natCast, ← zpow_neg]
      congr 1
      omega
    rw [hz] at hr ⊢
    rw [← div_eq_mul_inv] at hr ⊢
    exact ⟨_, rfl, rel_div hf ht2 (by positivity) (by omega) hr⟩
  · rw [if_neg hneg]
    have hz : (10 : ℚ) ^ e = 10 ^ e.natAbs := by
      rw [← zpow_natCast]
      congr 1
      omega
    rw [hz] at hr ⊢
    exact ⟨_, rfl, rel_mul hf ht2 (by omega) hr⟩

theorem ranged_between {y : ℚ} {a b : ℤ} (ha : -305 ≤ a) (hb : b ≤ 305) (h1 : (10 : ℚ) ^ a ≤ y) (h2 : y ≤ 10 ^ b) : Ranged y :=
  Or.inr ⟨le_trans (zpow_le_zpow_right₀ (by norm_num) ha) h1, le_trans h2 (zpow_le_zpow_right₀ (by norm_num) hb)⟩

theorem ranged_nat {n : ℕ} (h : n ≤ 10 ^ 18) : Ranged n := by
  rcases Nat.eq_zero_or_pos n with rfl | h0
  · left; simp
  · refine ranged_between (a := 0) (b := 18) (by omega) (by omega) ?_ ?_
    · rw [zpow_zero]; exact_mod_cast h0
    · rw [show ((18 : ℤ)) = ((18 : ℕ) : ℤ) by norm_num, zpow_natCast]; exact_mod_cast h

theorem parts_rel {c h l : ℕ} (hc : c * h ≤ 10 ^ 18) (hs : c * h + l ≤ 10 ^ 18) :
    Rel 2 (((F.fin (c : ℚ)).mul (.fin (h : ℚ))).add (.fin (l : ℚ))) ((c * h + l : ℕ) : ℚ) := by
  have h1 : Rel 1 ((F.fin (c : ℚ)).mul (.fin (h : ℚ))) ((c : ℚ) * h) :=
    rel_mul (j := 0) (k := 0) (rel_refl (Nat.cast_nonneg c)) (rel_refl (Nat.cast_nonneg h)) (by omega) (by
      rw [← Nat.cast_mul]; exact ranged_nat hc)
  have h2 := rel_add h1 (rel_mono (j := 0) (k := 1) (by omega) (rel_refl (Nat.cast_nonneg l))) (by omega) (by
    rw [← Nat.cast_mul, ← Nat.cast_add]; exact ranged_nat hs)
  rw [← Nat.cast_mul, ← Nat.cast_add] at h2
  exact h2

theorem mant_rel {a : ℕ} (h : a < 10 ^ 18) : Rel 2 (mant a) a := by
  have hsum : 1000000000 * (a / 10 ^ 9) + a % 10 ^ 9 = a := by omega
  have := parts_rel (c := 1000000000) (h := a / 10 ^ 9) (l := a % 10 ^ 9) (by omega) (by omega)
  rw [hsum] at this
  unfold mant
  rw [show (1000000000 : ℚ) = ((1000000000 : ℕ) : ℚ) by norm_num]
  exact this

theorem combineParts_rel {a b f : ℕ} {e : ℤ} (ha : a < 10 ^ 18) (hf : f ≤ 18) (hb : b < 10 ^ f) (he : e.natAbs ≤ 285) :
    ∃ r, combineParts a b f e = .ok r ∧ Rel 41 r ((a + b / 10 ^ f) * 10 ^ e) := by
  have hb18 : b < 10 ^ 18 := lt_of_lt_of_le hb (Nat.pow_le_pow_right (by norm_num) hf)
  have hbq : (b : ℚ) / 10 ^ f < 1 := by
    rw [div_lt_one (by positivity)]; exact_mod_cast hb
  have haq : (a : ℚ) + 1 ≤ 10 ^ 18 := by exact_mod_cast ha
  have hb0 : b ≠ 0 → (10 : ℚ) ^ (-18 : ℤ) ≤ (b : ℚ) / 10 ^ f := by
    intro h
    rw [le_div_iff₀ (by positivity), ← zpow_natCast, ← zpow_add₀ (by norm_num)]
    have h1 : (10 : ℚ) ^ (-18 + (f : ℤ)) ≤ 10 ^ (0 : ℤ) := zpow_le_zpow_right₀ (by norm_num) (by omega)
    rw [zpow_zero] at h1
    exact le_trans h1 (by exact_mod_cast Nat.pos_of_ne_zero h)
  have hrb : Ranged ((b : ℚ) / 10 ^ f) := by
    rcases Nat.eq_zero_or_pos b with rfl | h0
    · left; simp
    · exact ranged_between (a := -18) (b := 0) (by omega) (by omega) (hb0 (by omega)) (by rw [zpow_zero]; exact hbq.le)
  have hconv : (b : ℚ) * 10 ^ (-(f : ℤ)) = b / 10 ^ f := by rw [zpow_neg, zpow_natCast, div_eq_mul_inv]
  obtain ⟨fr, hfr1, hfr2⟩ := pow10_rel (e := -(f : ℤ)) (mant_rel hb18) (by omega) (by omega) (by rw [hconv]; exact hrb)
  rw [hconv] at hfr2
  have hsum0 : (a : ℚ) + b / 10 ^ f = 0 ∨ ((10 : ℚ) ^ (-18 : ℤ) ≤ a + b / 10 ^ f ∧ (a : ℚ) + b / 10 ^ f ≤ 10 ^ (18 : ℤ)) := by
    have hnn : 0 ≤ (b : ℚ) / 10 ^ f := by positivity
    have hup : (a : ℚ) + b / 10 ^ f ≤ 10 ^ (18 : ℤ) := by
      rw [show ((18 : ℤ)) = ((18 : ℕ) : ℤ) by norm_num, zpow_natCast]; linarith
    rcases Nat.eq_zero_or_pos a with rfl | h0
    · rcases Nat.eq_zero_or_pos b with rfl | h0
      · left; simp
      · right; refine ⟨?_, hup⟩; rw [Nat.cast_zero, zero_add]; exact hb0 (by omega)
    · right
      refine ⟨?_, hup⟩
      have h1 : (1 : ℚ) ≤ a := by exact_mod_cast h0
      have h2 : (10 : ℚ) ^ (-18 : ℤ) ≤ 1 := by norm_num
      linarith
  have hadd := rel_add (rel_mono (k := 21) (by omega) (mant_rel ha)) hfr2 (by omega) (by
    rcases hsum0 with h | ⟨h1, h2⟩
    · exact Or.inl h
    · exact ranged_between (by omega) (by omega) h1 h2)
  obtain ⟨r, hr1, hr2⟩ := pow10_rel (e := e) hadd (by omega) (by omega) (by
    rcases hsum0 with h | ⟨h1, h2⟩
    · left; rw [h, zero_mul]
    · refine ranged_between (a := -18 + e) (b := 18 + e) (by omega) (by omega) ?_ ?_
      · rw [zpow_add₀ (by norm_num)]; exact mul_le_mul_of_nonneg_right h1 (by positivity)
      · rw [zpow_add₀ (by norm_num)]; exact mul_le_mul_of_nonneg_right h2 (by positivity))
  refine ⟨r, ?_, hr2⟩
  unfold combineParts
  rw [hfr1, ok_bind, hr1]

theorem rel_error {f : F} {y : ℚ} (h : Rel 41 f y) : ∃ r, f = .fin r ∧ |r - y| ≤ y / 10 ^ 14 := by
  obtain ⟨r, rfl, h0, h1, h2⟩ := h
  refine ⟨r, rfl, ?_⟩
  have hu : u ^ 41 ≤ 1 + 1 / 10 ^ 14 := by unfold u; norm_num
  have hr := rel_val_nonneg h0 h1
  have h3 := le_trans h1 (mul_le_mul_of_nonneg_left hu hr)
  have h4 := le_trans h2 (mul_le_mul_of_nonneg_left hu h0)
  rw [abs_le]
  constructor
  · have h5 : r ≤ y * 2 := by
      have : y * (1 + 1 / 10 ^ 14) ≤ y * 2 := mul_le_mul_of_nonneg_left (by norm_num) h0
      linarith
    by_contra hc
    have hc := not_le.mp hc
    -- r < y - y/10^14
    have h6 : r * (1 + 1 / 10 ^ 14) < (y - y / 10 ^ 14) * (1 + 1 / 10 ^ 14) := mul_lt_mul_of_pos_right (by linarith) (by norm_num)
    have h7 : (y - y / 10 ^ 14) * (1 + 1 / 10 ^ 14) ≤ y := by
      have : (y - y / 10 ^ 14) * (1 + 1 / 10 ^ 14) = y * (1 - 1 / 10 ^ 14 * (1 / 10 ^ 14)) := by ring
      rw [this]
      have : y * (1 - 1 / 10 ^ 14 * (1 / 10 ^ 14)) ≤ y * 1 := mul_le_mul_of_nonneg_left (by norm_num) h0
      linarith
    linarith
  · have : y * (1 + 1 / 10 ^ 14) = y + y / 10 ^ 14 := by ring
    linarith

/-! ## Integers -/

theorem mant_exact {a : ℕ} (h : a ≤ 2 ^ 53) : mant a = .fin a := by
  unfold mant F.mul F.add
  have h1 : (1000000000 : ℚ) * ((a / 10 ^ 9 : ℕ) : ℚ) = ((1000000000 * (a / 10 ^ 9) : ℕ) : ℚ) := by push_cast; rfl
  simp only
  rw [h1, rnd_nat (by omega)]
  have h2 : ((1000000000 * (a / 10 ^ 9) : ℕ) : ℚ) + ((a % 10 ^ 9 : ℕ) : ℚ) = ((a : ℕ) : ℚ) := by
    have : (1000000000 * (a / 10 ^ 9) + a % 10 ^ 9 : ℕ) = a := by omega
    exact_mod_cast this
  simp only
  rw [h2, rnd_nat h]

theorem combineParts_nat {a : ℕ} (h : a ≤ 2 ^ 53) : combineParts a 0 0 0 = .ok (.fin a) := by
  have h1 : ∀ x : ℕ, x ≤ 2 ^ 53 → pow10 (.fin x) 0 = .ok (.fin x) := by
    intro x hx
    unfold pow10
    have : tenTo powersOfTen (0 : ℤ).natAbs (.fin 1) = .ok (.fin 1) := by rw [Int.natAbs_zero, tenTo]
    rw [this]
    have ha : assert (decide ((0 : ℤ) < 511)) = .ok () := by decide
    rw [ha, ok_bind, ok_bind, if_neg (by omega)]
    simp only [F.mul, mul_one]
    rw [rnd_nat hx]
  unfold combineParts
  have h2 := h1 0 (by norm_num)
  rw [Nat.cast_zero] at h2
  rw [mant_zero, mant_exact h, show (-((0 : ℕ) : ℤ)) = 0 by norm_num, h2, ok_bind]
  have : (F.fin (a : ℚ)).add (.fin 0) = .fin a := by
    simp only [F.add, add_zero]
    rw [rnd_nat h]
  rw [this, h1 a h]

/-! ## No faults -/

theorem tenTo_ok (fs : List F) (n : ℕ) (t : F) (hn : n < 2 ^ fs.length) : ∃ r, tenTo fs n t = .ok r := by
  induction fs generalizing n t with
  | nil =>
    have : n = 0 := by simpa using hn
    subst this
    exact ⟨t, by simp [tenTo]⟩
  | cons f fs ih =>
    cases n with
    | zero => exact ⟨t, by simp [tenTo]⟩
    | succ n =>
      rw [tenTo]
      rw [List.length_cons, pow_succ] at hn
      exact ih _ _ (by omega)

theorem pow10_ok (f : F) {e : ℤ} (h1 : e < 511) (h2 : e.natAbs ≤ 511) : ∃ r, pow10 f e = .ok r := by
  obtain ⟨t, ht⟩ := tenTo_ok powersOfTen e.natAbs (.fin 1) (by
    have : powersOfTen.length = 9 := rfl
    rw [this]; omega)
  unfold pow10
  have ha : assert (decide (e < 511)) = .ok () := by
    rw [assert, if_pos (by simp; omega)]
  rw [ha, ok_bind, ht, ok_bind]
  exact ⟨_, rfl⟩

theorem combineParts_ok (a b : ℕ) {f : ℕ} {e : ℤ} (hf : f ≤ 511) (h1 : e < 511) (h2 : e.natAbs ≤ 511) : ∃ r, combineParts a b f e = .ok r := by
  obtain ⟨x, hx⟩ := pow10_ok (mant b) (e := -(f : ℤ)) (by omega) (by omega)
  unfold combineParts
  rw [hx, ok_bind]
  exact pow10_ok _ h1 h2

end Tm.Dbl
