import Mathlib.Tactic.IntervalCases
import Mathlib.Data.Nat.Bitwise
import Verif.Util.Spec
import Verif.Alloc.Lemmas

/-! # Properties of tm_utility.h -/

namespace Tm.Util

variable {α : Type} {lt : α → α → Bool}

theorem StrictWeak.asymm (h : StrictWeak lt) {a b : α} (hab : lt a b = true) : lt b a = false := by
  cases hba : lt b a with
  | false => rfl
  | true => have := h.trans a b a hab hba; rw [h.irrefl] at this; exact nomatch this

/-- Not less is transitive. -/
theorem StrictWeak.not_trans (h : StrictWeak lt) {a b c : α} (hab : lt a b = false) (hbc : lt b c = false) : lt a c = false := by
  cases hac : lt a c with
  | false => rfl
  | true =>
    rcases h.comparable a b c hac with h1 | h1
    · rw [hab] at h1; exact nomatch h1
    · rw [hbc] at h1; exact nomatch h1

/-! ## C152 -/

theorem min2_least (h : StrictWeak lt) (a b : α) : Least lt [a, b] (min2 lt a b) := by
  unfold min2 Least
  split <;> rename_i hab <;> simp [h.irrefl, hab, h.asymm]

theorem max2_greatest (h : StrictWeak lt) (a b : α) : Greatest lt [a, b] (max2 lt a b) := by
  unfold max2 Greatest
  split <;> rename_i hab <;> simp [h.irrefl, hab, h.asymm]

theorem C152_min_max (h : StrictWeak lt) (a b c : α) :
    Least lt [a, b] (min2 lt a b) ∧ Greatest lt [a, b] (max2 lt a b) ∧
    Least lt [a, b, c] (min3 lt a b c) ∧ Greatest lt [a, b, c] (max3 lt a b c) := by
  refine ⟨min2_least h a b, max2_greatest h a b, ?_, ?_⟩
  · obtain ⟨h1, h2⟩ := min2_least h b c
    obtain ⟨h3, h4⟩ := min2_least h a (min2 lt b c)
    unfold min3 Least
    generalize min2 lt b c = m at *
    generalize min2 lt a m = m' at *
    simp only [List.mem_cons, List.not_mem_nil, or_false, forall_eq_or_imp, forall_eq] at *
    exact ⟨by rcases h3 with h3 | h3 <;> simp [h3, h1], h4.1, h.not_trans h2.1 h4.2, h.not_trans h2.2 h4.2⟩
  · obtain ⟨h1, h2⟩ := max2_greatest h a b
    obtain ⟨h3, h4⟩ := max2_greatest h (max2 lt a b) c
    unfold max3 Greatest
    generalize max2 lt a b = m at *
    generalize max2 lt m c = m' at *
    simp only [List.mem_cons, List.not_mem_nil, or_false, forall_eq_or_imp, forall_eq] at *
    exact ⟨by rcases h3 with h3 | h3 <;> simp [h3] ; exact h1.elim Or.inl (fun h => Or.inr (Or.inl h)), h.not_trans h4.1 h2.1, h.not_trans h4.1 h2.2, h4.2⟩

theorem natLt : StrictWeak (fun a b : Nat × Nat => decide (a.1 < b.1)) :=
  ⟨fun a => by simp, fun a b c h1 h2 => by simp at *; omega, fun a b c h1 => by simp at *; omega⟩

example : StrictWeak (fun a b : Nat × Nat => decide (a.1 < b.1)) ∧ min3 (fun a b : Nat × Nat => decide (a.1 < b.1)) (2, 0) (1, 1) (1, 2) = (1, 2) :=
  ⟨natLt, by decide⟩

theorem minmax2_cases (h : StrictWeak lt) (a b : α) :
    ((minmax2 lt a b = (a, b)) ∨ minmax2 lt a b = (b, a)) ∧ lt (minmax2 lt a b).2 (minmax2 lt a b).1 = false := by
  unfold minmax2
  split <;> rename_i hab
  · exact ⟨Or.inl rfl, h.asymm hab⟩
  · exact ⟨Or.inr rfl, by simpa using hab⟩

/-- `minmax` with `operator<`, or with a functor that is the same. -/
theorem C152_minmax (h : StrictWeak lt) (a b c : α) :
    Least lt [a, b] (minmax2 lt a b).1 ∧ Greatest lt [a, b] (minmax2 lt a b).2 ∧ [(minmax2 lt a b).1, (minmax2 lt a b).2].Perm [a, b] ∧
    Least lt [a, b, c] (minmax3 lt a b c).1 ∧ Greatest lt [a, b, c] (minmax3 lt a b c).2 := by
  refine ⟨?_, ?_, ?_, ?_⟩
  · obtain ⟨h1, h2⟩ := minmax2_cases h a b
    rcases h1 with h1 | h1 <;> rw [h1] at h2 ⊢ <;> simp [Least, h.irrefl, h2]
  · obtain ⟨h1, h2⟩ := minmax2_cases h a b
    rcases h1 with h1 | h1 <;> rw [h1] at h2 ⊢ <;> simp [Greatest, h.irrefl, h2]
  · rcases (minmax2_cases h a b).1 with h1 | h1 <;> rw [h1]
    exact List.Perm.swap _ _ _
  · have key : ∀ lo hi : α, lt hi lo = false → (lo = a ∧ hi = c ∨ lo = c ∧ hi = a) → minmax2 lt a c = (lo, hi) →
        Least lt [a, b, c] (minmax3 lt a b c).1 ∧ Greatest lt [a, b, c] (minmax3 lt a b c).2 := by
      intro lo hi hlt hc hm
      unfold minmax3
      rw [hm]
      simp only
      by_cases h1 : lt b lo = true
      · rw [if_pos h1]
        have hb : lt hi b = false := h.not_trans hlt (h.asymm h1)
        rcases hc with ⟨rfl, rfl⟩ | ⟨rfl, rfl⟩ <;>
          exact ⟨⟨by simp, by simp [h.irrefl, h.asymm h1, hb]⟩, by simp, by simp [h.irrefl, hlt, hb]⟩
      · rw [if_neg h1]
        have h1 : lt b lo = false := by simpa using h1
        by_cases h2 : lt hi b = true
        · rw [if_pos h2]
          have hb : lt b hi = false := h.asymm h2
          rcases hc with ⟨rfl, rfl⟩ | ⟨rfl, rfl⟩ <;>
            exact ⟨⟨by simp, by simp [h.irrefl, h1, hlt]⟩, by simp, by simp [h.irrefl, h1, hb]⟩
        · rw [if_neg h2]
          have h2 : lt hi b = false := by simpa using h2
          rcases hc with ⟨rfl, rfl⟩ | ⟨rfl, rfl⟩ <;>
            exact ⟨⟨by simp, by simp [h.irrefl, h1, hlt]⟩, by simp, by simp [h.irrefl, h2, hlt]⟩
    obtain ⟨h1, h2⟩ := minmax2_cases h a c
    rcases h1 with h1 | h1 <;> rw [h1] at h2
    · exact key a c h2 (Or.inl ⟨rfl, rfl⟩) h1
    · exact key c a h2 (Or.inr ⟨rfl, rfl⟩) h1

example : minmax3 (fun a b : Nat × Nat => decide (a.1 < b.1)) (2, 0) (1, 1) (3, 2) = ((1, 1), (3, 2)) := by decide

/-- Missing: functors other than `operator<`, which is used as well. -/
theorem C152_minmax_functor_partial {comp : α → α → Bool} (h : StrictWeak comp) (he : ∀ a b, comp a b = lt a b) (a b c : α) :
    Least comp [a, b, c] (minmax3Comp lt comp a b c).1 ∧ Greatest comp [a, b, c] (minmax3Comp lt comp a b c).2 := by
  have : comp = lt := by funext a b; exact he a b
  subst this
  exact (C152_minmax h a b c).2.2.2

example : ∃ comp : Nat → Nat → Bool, StrictWeak comp ∧ ∀ a b, comp a b = decide (a < b) :=
  ⟨fun a b => decide (a < b), ⟨fun a => by simp, fun a b c h1 h2 => by simp at *; omega, fun a b c h1 => by simp at *; omega⟩, fun _ _ => rfl⟩

/-- With the functor "greater", the greatest of 2, 1 and 2 (in the order of the functor, that is the smallest number) is not found. -/
theorem C152_not_functor : ∃ (comp : Nat → Nat → Bool) (a b c : Nat), StrictWeak comp ∧
    ¬ Greatest comp [a, b, c] (minmax3Comp (fun a b => decide (a < b)) comp a b c).2 := by
  refine ⟨fun a b => decide (b < a), 2, 1, 2, ⟨fun a => by simp, fun a b c h1 h2 => by simp at *; omega, fun a b c h1 => by simp at *; omega⟩, ?_⟩
  rintro ⟨_, h⟩
  exact absurd (h 1 (by simp)) (by decide)

/-! ## C153 -/

theorem C153_median (h : StrictWeak lt) (a b c : α) : Middle lt [a, b, c] (median lt a b c) := by
  obtain ⟨h1, h2⟩ := minmax2_cases h a b
  have hp : ([(minmax2 lt a b).1, (minmax2 lt a b).2] : List α).Perm [a, b] := (C152_minmax h a b c).2.2.1
  unfold median
  generalize minmax2 lt a b = mm at *
  obtain ⟨lo, hi⟩ := mm
  simp only at *
  have hp3 : ([a, b, c] : List α).Perm [lo, hi, c] := (List.Perm.append_right [c] hp).symm
  by_cases h3 : lt hi c = true
  · rw [if_pos h3]
    exact ⟨lo, c, hp3, h2, h.asymm h3⟩
  · rw [if_neg h3]
    have h3 : lt hi c = false := by simpa using h3
    by_cases h4 : lt lo c = true
    · rw [if_pos h4]
      exact ⟨lo, hi, hp3.trans (.cons _ (.swap _ _ _)), h.asymm h4, h3⟩
    · rw [if_neg h4]
      have h4 : lt lo c = false := by simpa using h4
      refine ⟨c, hi, hp3.trans ?_, h4, h2⟩
      exact (List.perm_append_comm (l₁ := [lo, hi]) (l₂ := [c]))

example : median (fun a b : Nat × Nat => decide (a.1 < b.1)) (3, 0) (1, 1) (2, 2) = (2, 2) := by decide

theorem C153_clamp (h : StrictWeak lt) (val lower upper : α) (hlu : lt upper lower = false) :
    lt (clamp lt val lower upper) lower = false ∧ lt upper (clamp lt val lower upper) = false ∧
    (lt val lower = false → lt upper val = false → clamp lt val lower upper = val) ∧
    (lt val lower = true → clamp lt val lower upper = lower) ∧ (lt upper val = true → clamp lt val lower upper = upper) := by
  unfold clamp
  by_cases h1 : lt val lower = true
  · rw [if_pos h1]
    refine ⟨h.irrefl _, hlu, fun h2 => (by rw [h1] at h2; exact nomatch h2), fun _ => rfl, fun h2 => ?_⟩
    have := h.trans _ _ _ h2 h1
    rw [hlu] at this
    exact nomatch this
  · rw [if_neg h1]
    have h1' : lt val lower = false := by simpa using h1
    by_cases h2 : lt upper val = true
    · rw [if_pos h2]
      exact ⟨hlu, h.irrefl _, fun _ h3 => (by rw [h2] at h3; exact nomatch h3), fun h3 => absurd h3 h1, fun _ => rfl⟩
    · rw [if_neg h2]
      exact ⟨h1', by simpa using h2, fun _ _ => rfl, fun h3 => absurd h3 h1, fun h3 => absurd h3 h2⟩

example : (fun a b : Nat × Nat => decide (a.1 < b.1)) (5, 0) (2, 0) = false ∧
    clamp (fun a b : Nat × Nat => decide (a.1 < b.1)) (9, 9) (2, 0) (5, 0) = (5, 0) := by decide

/-! ## C154 -/

/-- 32 and 64 bits and any others. -/
theorem C154_power_of_two {w : Nat} (x : BitVec w) : isPowerOfTwo x = true ↔ ∃ k : Nat, x.toNat = 2 ^ k := by
  unfold isPowerOfTwo
  by_cases h0 : x = 0
  · subst h0
    simp only [bne_self_eq_false, Bool.false_and, Bool.false_eq_true, false_iff]
    rintro ⟨k, hk⟩
    have := Nat.two_pow_pos k
    simp at hk
    omega
  · have hp : 0 < x.toNat := by
      rcases Nat.eq_zero_or_pos x.toNat with h | h
      · exact absurd (BitVec.eq_of_toNat_eq (by simpa using h)) h0
      · exact h
    have h1 : (x - 1).toNat = x.toNat - 1 := by
      have hl := x.isLt
      have hw : 0 < w := by
        rcases Nat.eq_zero_or_pos w with h | h
        · subst h; simp at hl; omega
        · exact h
      have h2 : 2 ≤ 2 ^ w := by calc 2 = 2 ^ 1 := rfl
        _ ≤ 2 ^ w := Nat.pow_le_pow_right (by omega) hw
      have h3 : (1 : BitVec w).toNat = 1 := by
        show (BitVec.ofNat w 1).toNat = 1
        rw [BitVec.toNat_ofNat, Nat.mod_eq_of_lt (by omega)]
      rw [BitVec.toNat_sub, h3, show 2 ^ w - 1 + x.toNat = (x.toNat - 1) + 2 ^ w by omega, Nat.add_mod_right, Nat.mod_eq_of_lt (by omega)]
    have hk : (∃ k : Nat, x.toNat = 2 ^ k) ↔ x.toNat &&& (x.toNat - 1) = 0 := (Alloc.and_pred_eq_zero_iff _ hp).symm
    rw [hk]
    simp only [bne_iff_ne, ne_eq, Bool.and_eq_true, beq_iff_eq]
    constructor
    · rintro ⟨_, h⟩
      have := congrArg BitVec.toNat h
      rw [BitVec.toNat_and, h1] at this
      exact this
    · intro h
      refine ⟨h0, BitVec.eq_of_toNat_eq ?_⟩
      rw [BitVec.toNat_and, h1, h]
      rfl

example : isPowerOfTwo (0x80000000#32) = true ∧ isPowerOfTwo (0x80000001#32) = false := by decide

/-- The offset is the least one that gives a multiple of the alignment. -/
theorem C154_alignment_offset (ptr alignment : BitVec 64) (k : Nat) (hk : alignment.toNat = 2 ^ k) :
    ∃ off, getAlignmentOffset ptr alignment = .ok off ∧ alignment.toNat ∣ ptr.toNat + off.toNat ∧
      ∀ m, alignment.toNat ∣ ptr.toNat + m → off.toNat ≤ m := by
  have hp : Alloc.Pow2 alignment.toNat := ⟨k, hk⟩
  have h0 : alignment ≠ 0 := by
    rintro rfl
    have := Nat.two_pow_pos k
    simp at hk
    omega
  have ho := Alloc.offset_toNat (ptr := ptr) hp
  have hd := Alloc.pad_dvd (n := ptr.toNat) hp.pos
  refine ⟨(alignment - ptr) &&& (alignment - 1), ?_, by rw [ho]; exact hd, ?_⟩
  · unfold getAlignmentOffset isAligned
    rw [Alloc.assert_true (by rw [(C154_power_of_two alignment).mpr ⟨k, hk⟩]; simpa using h0), ok_bind]
    simp only
    rw [if_neg h0, ok_bind]
    rw [Alloc.assert_true, ok_bind]
    rw [beq_iff_eq]
    apply BitVec.eq_of_toNat_eq
    rw [BitVec.umod_eq, BitVec.toNat_umod, BitVec.toNat_add, Alloc.mod_dvd hp.dvd_word, ho]
    exact Nat.mod_eq_zero_of_dvd hd
  · intro m hm
    have := Alloc.pad_min (n := ptr.toNat) (m := ptr.toNat + m) (Nat.le_add_right _ _) hm
    rw [ho]
    omega

example : (16#64).toNat = 2 ^ 4 ∧ getAlignmentOffset 0x1009#64 16#64 = .ok 7#64 := by decide

/-- Other alignments are rejected. -/
theorem C154_alignment_rejected (ptr alignment : BitVec 64) (h : ∀ k : Nat, alignment.toNat ≠ 2 ^ k) :
    getAlignmentOffset ptr alignment = .error .assertion := by
  unfold getAlignmentOffset
  have : isPowerOfTwo alignment = false := by
    cases hb : isPowerOfTwo alignment with
    | false => rfl
    | true => obtain ⟨k, hk⟩ := (C154_power_of_two alignment).mp hb; exact absurd hk (h k)
  rw [Alloc.assert_false (by simp [this])]
  rfl

example : getAlignmentOffset 0x1009#64 12#64 = .error .assertion := by decide

/-! ## C155 -/

theorem mapToRange_eq {value min max : Int} (h1 : min < max) (hmin : IsInt min) (hmax : IsInt max) (h2 : max - min < 2 ^ 31) :
    mapToRange value min max = .ok (((BitVec.ofInt 32 value).toNat * (max - min).toNat / 2 ^ 32 : Nat) + min) ∧
    (BitVec.ofInt 32 value).toNat * (max - min).toNat / 2 ^ 32 < (max - min).toNat := by
  obtain ⟨n, hn⟩ : ∃ n : Nat, max - min = n := ⟨(max - min).toNat, by omega⟩
  have hu := (BitVec.ofInt 32 value).isLt
  unfold mapToRange
  generalize BitVec.ofInt 32 value = u at *
  have hnn : (max - min).toNat = n := by omega
  have hlt : u.toNat * n / 2 ^ 32 < n := by
    rw [Nat.div_lt_iff_lt_mul (by omega), Nat.mul_comm]
    exact Nat.mul_lt_mul_of_pos_left hu (by omega)
  have hprod : u.toNat * n < 2 ^ 64 := by
    calc u.toNat * n < 2 ^ 32 * 2 ^ 31 := Nat.mul_lt_mul'' hu (by omega)
      _ < 2 ^ 64 := by decide
  rw [hnn]
  refine ⟨?_, hlt⟩
  unfold int
  rw [if_pos (by omega), ok_bind]
  have hb : (BitVec.ofInt 32 (max - min)) = BitVec.ofNat 32 n := by rw [hn, BitVec.ofInt_natCast]
  have hk : ((((u.setWidth 64 * (BitVec.ofInt 32 (max - min)).setWidth 64) >>> 32).setWidth 32).toInt) = (u.toNat * n / 2 ^ 32 : Nat) := by
    rw [hb, BitVec.toInt_eq_toNat_of_lt]
    · simp only [BitVec.toNat_setWidth, BitVec.toNat_ushiftRight, BitVec.toNat_mul, BitVec.toNat_ofNat, Nat.shiftRight_eq_div_pow]
      rw [Nat.mod_eq_of_lt (show u.toNat < 2 ^ 64 by omega), Nat.mod_eq_of_lt (show n < 2 ^ 32 by omega),
        Nat.mod_eq_of_lt (show n < 2 ^ 64 by omega), Nat.mod_eq_of_lt hprod, Nat.mod_eq_of_lt (by omega)]
    · simp only [BitVec.toNat_setWidth, BitVec.toNat_ushiftRight, BitVec.toNat_mul, BitVec.toNat_ofNat, Nat.shiftRight_eq_div_pow]
      rw [Nat.mod_eq_of_lt (show u.toNat < 2 ^ 64 by omega), Nat.mod_eq_of_lt (show n < 2 ^ 32 by omega),
        Nat.mod_eq_of_lt (show n < 2 ^ 64 by omega), Nat.mod_eq_of_lt hprod, Nat.mod_eq_of_lt (by omega)]
      omega
  unfold IsInt at *
  simp only
  rw [hk, if_pos (by omega)]

/-- Missing: ranges of 2^31 numbers or more, and 32 bit architectures. -/
theorem C155_range_partial (value min max : Int) (h1 : min < max) (hmin : IsInt min) (hmax : IsInt max) (h2 : max - min < 2 ^ 31) :
    ∃ r, mapToRange value min max = .ok r ∧ min ≤ r ∧ r < max := by
  obtain ⟨h3, h4⟩ := mapToRange_eq (value := value) h1 hmin hmax h2
  exact ⟨_, h3, by omega, by omega⟩

example : (-3 : Int) < 7 ∧ IsInt (-3) ∧ IsInt 7 ∧ mapToRange (-1) (-3) 7 = .ok 6 := by unfold IsInt; decide

/-- The number of non-negative integers in an interval. -/
theorem countP_between (a b : Nat) : ∀ N, b ≤ N → a ≤ b → (List.range N).countP (fun u => decide (a ≤ u ∧ u < b)) = b - a := by
  have key : ∀ N, (List.range N).countP (fun u => decide (a ≤ u ∧ u < b)) = min N b - a := by
    intro N
    induction N with
    | zero => simp [Nat.min_def]
    | succ N ih =>
      rw [List.range_succ, List.countP_append, ih]
      simp only [List.countP_cons, List.countP_nil, Nat.zero_add, decide_eq_true_eq, Nat.min_def]
      split <;> split <;> split <;> omega
  intro N hN hab
  rw [key, Nat.min_def]
  split <;> omega

/-- The least number whose product with `n` is not below `x`. -/
theorem ceil_le {n x u : Nat} (hn : 0 < n) : (x + n - 1) / n ≤ u ↔ x ≤ u * n := by
  rw [Nat.div_le_iff_le_mul_add_pred hn, Nat.mul_comm]
  omega

/-- How many numbers are mapped to one. -/
theorem fair_aux {M n k : Nat} (hM : 0 < M) (hn : 0 < n) (hk : k < n) :
    (List.range M).countP (fun u => decide (u * n / M = k)) = M / n ∨ (List.range M).countP (fun u => decide (u * n / M = k)) = M / n + 1 := by
  have hiff : ∀ u, u * n / M = k ↔ (k * M + n - 1) / n ≤ u ∧ u < ((k + 1) * M + n - 1) / n := by
    intro u
    rw [ceil_le hn, ← not_le, ceil_le hn, not_le, Nat.div_eq_iff hM]
    rw [Nat.add_mul]
    omega
  have hcount : (List.range M).countP (fun u => decide (u * n / M = k)) = ((k + 1) * M + n - 1) / n - (k * M + n - 1) / n := by
    rw [← countP_between _ _ M]
    · congr 1
      funext u
      exact decide_eq_decide.mpr (hiff u)
    · rw [ceil_le hn, Nat.mul_comm M]
      exact Nat.mul_le_mul_right _ hk
    · apply Nat.div_le_div_right
      rw [Nat.add_mul]
      omega
  rw [hcount]
  have e1 := Nat.div_add_mod M n
  have e2 := Nat.div_add_mod (k * M + n - 1) n
  have e3 := Nat.mod_lt M hn
  have e4 := Nat.mod_lt (k * M + n - 1) hn
  have e5 : (k + 1) * M + n - 1 = (M % n + (k * M + n - 1) % n) + n * (M / n + (k * M + n - 1) / n) := by
    rw [Nat.add_mul, Nat.mul_add]
    omega
  rw [e5, Nat.add_mul_div_left _ _ hn]
  have e6 : (M % n + (k * M + n - 1) % n) / n ≤ 1 := by
    apply Nat.lt_succ_iff.mp
    rw [Nat.div_lt_iff_lt_mul hn]
    omega
  generalize (M % n + (k * M + n - 1) % n) / n = x at e6 ⊢
  generalize (k * M + n - 1) / n = y
  generalize M / n = z
  clear e1 e2 e3 e4 e5 hcount hiff
  omega

/-- "Almost fairly": of all values of type `int`, every number of the range gets 2^32 divided by the size of the range, or one more.
Missing: as above. -/
theorem C155_fair_partial (min max r : Int) (h1 : min < max) (hmin : IsInt min) (hmax : IsInt max) (h2 : max - min < 2 ^ 31)
    (h3 : min ≤ r) (h4 : r < max) (count : Nat)
    (hc : count = (List.range (2 ^ 32)).countP (fun i => mapToRange (BitVec.ofNat 32 i).toInt min max == .ok r)) :
    count = 2 ^ 32 / (max - min).toNat ∨ count = 2 ^ 32 / (max - min).toNat + 1 := by
  have hfun : (List.range (2 ^ 32)).countP (fun i => mapToRange (BitVec.ofNat 32 i).toInt min max == .ok r) =
      (List.range (2 ^ 32)).countP (fun u => decide (u * (max - min).toNat / 2 ^ 32 = (r - min).toNat)) := by
    apply List.countP_congr
    intro i hi
    have hi := List.mem_range.mp hi
    have := (mapToRange_eq (value := (BitVec.ofNat 32 i).toInt) h1 hmin hmax h2).1
    rw [this, BitVec.ofInt_toInt, BitVec.toNat_ofNat, Nat.mod_eq_of_lt hi, decide_eq_true_eq, beq_iff_eq]
    constructor
    · intro h
      have := Except.ok.inj h
      omega
    · intro h
      rw [h]
      congr 1
      omega
  rw [hc, hfun]
  exact fair_aux (Nat.two_pow_pos 32) (by omega) (by omega)

example : ∃ (min max r : Int), min < max ∧ IsInt min ∧ IsInt max ∧ max - min < 2 ^ 31 ∧ min ≤ r ∧ r < max :=
  ⟨1, 7, 3, by unfold IsInt; decide⟩

/-- The range is that of all non-negative numbers and one negative one: its size overflows. -/
theorem C155_not_wide : ∃ value min max : Int, IsInt value ∧ IsInt min ∧ IsInt max ∧ min < max ∧
    mapToRange value min max = .error .overflow := ⟨0, -1, 2 ^ 31 - 1, by unfold IsInt; decide⟩

/-- On 32 bit architectures, negative values are mapped below the range. -/
theorem C155_not_narrow : ∃ value min max r : Int, IsInt value ∧ IsInt min ∧ IsInt max ∧ min < max ∧
    mapToRange32 value min max = .ok r ∧ r < min := ⟨-1, 0, 10, -1, by unfold IsInt; decide⟩

/-! ## C156 -/

theorem byte_congr {x y i k : Nat} (h : ∀ j < 8, x.testBit (8 * i + j) = y.testBit (8 * k + j)) : byte x i = byte y k := by
  unfold byte
  apply Nat.eq_of_testBit_eq
  intro j
  rw [show 256 = 2 ^ 8 from rfl, ← Nat.pow_mul, ← Nat.pow_mul, Nat.testBit_mod_two_pow, Nat.testBit_mod_two_pow, Nat.testBit_div_two_pow,
    Nat.testBit_div_two_pow]
  by_cases hj : j < 8
  · simpa [hj, Nat.add_comm] using h j hj
  · simp [hj]

theorem swap16_bit (v : BitVec 16) (i j : Nat) (hi : i < 2) (hj : j < 8) :
    (swapEndian16 v).getLsbD (8 * i + j) = v.getLsbD (8 * (1 - i) + j) := by
  unfold swapEndian16
  interval_cases i <;> interval_cases j <;> simp

theorem swap32_bit (v : BitVec 32) (i j : Nat) (hi : i < 4) (hj : j < 8) :
    (swapEndian32 v).getLsbD (8 * i + j) = v.getLsbD (8 * (3 - i) + j) := by
  unfold swapEndian32
  interval_cases i <;> interval_cases j <;> simp

theorem swap64_bit (v : BitVec 64) (i j : Nat) (hi : i < 8) (hj : j < 8) :
    (swapEndian64 v).getLsbD (8 * i + j) = v.getLsbD (8 * (7 - i) + j) := by
  unfold swapEndian64
  interval_cases i <;> interval_cases j <;> simp

/-- The bytes are reversed. -/
theorem C156_reversed :
    (∀ (v : BitVec 16) (i : Nat), i < 2 → byte (swapEndian16 v).toNat i = byte v.toNat (1 - i)) ∧
    (∀ (v : BitVec 32) (i : Nat), i < 4 → byte (swapEndian32 v).toNat i = byte v.toNat (3 - i)) ∧
    (∀ (v : BitVec 64) (i : Nat), i < 8 → byte (swapEndian64 v).toNat i = byte v.toNat (7 - i)) :=
  ⟨fun v i hi => byte_congr fun j hj => swap16_bit v i j hi hj, fun v i hi => byte_congr fun j hj => swap32_bit v i j hi hj,
    fun v i hi => byte_congr fun j hj => swap64_bit v i j hi hj⟩

example : swapEndian64 0x0102030405060708#64 = 0x0807060504030201#64 := by decide

/-- Twice is not at all. -/
theorem C156_twice : (∀ v, swapEndian16 (swapEndian16 v) = v) ∧ (∀ v, swapEndian32 (swapEndian32 v) = v) ∧
    ∀ v, swapEndian64 (swapEndian64 v) = v := by
  refine ⟨fun v => ?_, fun v => ?_, fun v => ?_⟩ <;> apply BitVec.eq_of_getLsbD_eq <;> intro p hp <;>
    rw [show p = 8 * (p / 8) + p % 8 by omega]
  · rw [swap16_bit _ _ _ (by omega) (by omega), swap16_bit _ _ _ (by omega) (by omega), show 1 - (1 - p / 8) = p / 8 by omega]
  · rw [swap32_bit _ _ _ (by omega) (by omega), swap32_bit _ _ _ (by omega) (by omega), show 3 - (3 - p / 8) = p / 8 by omega]
  · rw [swap64_bit _ _ _ (by omega) (by omega), swap64_bit _ _ _ (by omega) (by omega), show 7 - (7 - p / 8) = p / 8 by omega]

/-! ## C157 -/

theorem memEqual_shift (mem : List Byte) : ∀ (n p : Nat), p + n < mem.length → ∃ b, memEqual mem p (p + 1) n = .ok b ∧
    (b = true ↔ ∀ i < n, mem[p + i + 1]? = mem[p + i]?)
  | 0, p, _ => ⟨true, rfl, by simp⟩
  | n + 1, p, h => by
    have r1 : rd mem p = .ok mem[p] := by unfold rd; rw [List.getElem?_eq_getElem (by omega)]
    have r2 : rd mem (p + 1) = .ok mem[p + 1] := by unfold rd; rw [List.getElem?_eq_getElem (by omega)]
    unfold memEqual
    rw [r1, ok_bind, r2, ok_bind]
    by_cases he : mem[p] = mem[p + 1]
    · rw [if_pos he]
      obtain ⟨b, hb, hi⟩ := memEqual_shift mem n (p + 1) (by omega)
      refine ⟨b, hb, hi.trans ⟨fun h i hlt => ?_, fun h i hlt => ?_⟩⟩
      · cases i with
        | zero => simp only [Nat.add_zero]; rw [List.getElem?_eq_getElem (by omega), List.getElem?_eq_getElem (by omega), he]
        | succ i => have := h i (by omega); rwa [show p + 1 + i = p + (i + 1) by omega] at this
      · have := h (i + 1) (by omega); rwa [show p + (i + 1) = p + 1 + i by omega] at this
    · rw [if_neg he]
      refine ⟨false, rfl, ?_⟩
      simp only [Bool.false_eq_true, false_iff]
      intro h
      have := h 0 (by omega)
      rw [Nat.add_zero, List.getElem?_eq_getElem (by omega), List.getElem?_eq_getElem (by omega)] at this
      exact he (Option.some.inj this).symm

theorem C157_memory_zero (mem : List Byte) (ptr size : Nat) (h0 : 0 < size) (h : ptr + size ≤ mem.length) :
    ∃ b, isMemoryZero mem ptr size = .ok b ∧ (b = true ↔ ∀ i < size, mem[ptr + i]? = some 0) := by
  unfold isMemoryZero
  have r1 : rd mem ptr = .ok mem[ptr] := by unfold rd; rw [List.getElem?_eq_getElem (by omega)]
  rw [Alloc.assert_true (by simp; omega), ok_bind, r1, ok_bind]
  by_cases he : mem[ptr] = 0
  · rw [if_pos he]
    obtain ⟨b, hb, hi⟩ := memEqual_shift mem (size - 1) ptr (by omega)
    refine ⟨b, hb, hi.trans ⟨fun h i => ?_, fun h i hlt => ?_⟩⟩
    · induction i with
      | zero => intro _; rw [Nat.add_zero, List.getElem?_eq_getElem (by omega), he]
      | succ i ih => intro hlt; rw [← Nat.add_assoc, h i (by omega), ih (by omega)]
    · rw [h i (by omega), Nat.add_assoc, h (i + 1) (by omega)]
  · rw [if_neg he]
    refine ⟨false, rfl, ?_⟩
    simp only [Bool.false_eq_true, false_iff]
    intro h
    have := h 0 h0
    rw [Nat.add_zero, List.getElem?_eq_getElem (by omega)] at this
    exact he (Option.some.inj this)

example : isMemoryZero [1, 0, 0, 0, 1] 1 3 = .ok true ∧ isMemoryZero [1, 0, 0, 0, 1] 1 4 = .ok false ∧
    isMemoryZero [1, 1, 1, 1, 1] 1 3 = .ok false := by decide

theorem C157_fill (value : α) : ∀ (count dest : Nat) (mem : List α), dest + count ≤ mem.length →
    fill value dest mem count = .ok (mem.take dest ++ List.replicate count value ++ mem.drop (dest + count))
  | 0, dest, mem, _ => by simp [fill]
  | count + 1, dest, mem, h => by
    unfold fill wr
    rw [if_pos (by omega), ok_bind, C157_fill value count (dest + 1) (mem.set dest value) (by rw [List.length_set]; omega)]
    congr 1
    have h1 : (mem.set dest value).take (dest + 1) = mem.take dest ++ [value] := by
      rw [List.take_add_one, List.getElem?_set_self (by omega), List.take_set_of_le (Nat.le_refl _)]
      rfl
    have h2 : (mem.set dest value).drop (dest + 1 + count) = mem.drop (dest + (count + 1)) := by
      rw [List.drop_set_of_lt (by omega)]
      congr 1
      omega
    rw [h1, h2, List.replicate_succ, List.append_assoc (mem.take dest)]
    rfl

example : fill 7 1 [1, 2, 3, 4, 5] 3 = .ok [1, 7, 7, 7, 5] := by decide

/-! ## C158 -/

/-- Only letters are changed, and into the same letter. -/
theorem C158_letters (c : BitVec 32) :
    (∀ k : Nat, k < 26 → c.toNat = 0x61 + k → (toUpper c).toNat = 0x41 + k) ∧ (¬ (0x61 ≤ c.toNat ∧ c.toNat ≤ 0x7A) → toUpper c = c) ∧
    (∀ k : Nat, k < 26 → c.toNat = 0x41 + k → (toLower c).toNat = 0x61 + k) ∧ (¬ (0x41 ≤ c.toNat ∧ c.toNat ≤ 0x5A) → toLower c = c) := by
  unfold toUpper toLower
  simp only [Bool.and_eq_true, decide_eq_true_eq, BitVec.le_def, BitVec.ofNat_eq_ofNat, BitVec.toNat_ofNat]
  refine ⟨fun k hk h => ?_, fun h => ?_, fun k hk h => ?_, fun h => ?_⟩
  · rw [if_pos (by omega)]; bv_omega
  · rw [if_neg (by omega)]
  · rw [if_pos (by omega)]; bv_omega
  · rw [if_neg (by omega)]

example : toUpper 0x7A#32 = 0x5A#32 ∧ toUpper 0x7B#32 = 0x7B#32 := by decide

/-- Texts that are equal in upper case are equal in lower case, and the other way round. -/
theorem C158_insensitive (c d : BitVec 32) : toUpper c = toUpper d ↔ toLower c = toLower d := by
  unfold toUpper toLower
  simp only [Bool.and_eq_true, decide_eq_true_eq]
  split <;> split <;> split <;> split <;> bv_omega

example : toUpper 0x6B#32 = toUpper 0x4B#32 ∧ toLower 0x6B#32 = toLower 0x4B#32 := by decide

end Tm.Util
