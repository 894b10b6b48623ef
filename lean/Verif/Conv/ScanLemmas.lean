import Verif.Conv.Spec
import Verif.Num.Lemmas
namespace Tm.Conv
open Tm.Num

theorem charDigit_some {c : Byte} {d : Nat} : charDigit c = some d ↔ (d < 36 ∧ (c.toNat = upperCode d ∨ c.toNat = lowerCode d)) := by
  simp only [charDigit, isdigit, isupper, islower, upperCode, lowerCode, Bool.and_eq_true, decide_eq_true_eq]
  have := c.isLt
  generalize c.toNat = x at *
  repeat' split
  all_goals first
    | (simp only [Option.some.injEq]; omega)
    | (simp only [reduceCtorEq, false_iff]; omega)

theorem isDigit_iff {base : Nat} (hb : base ≤ 36) {c : Byte} {d : Nat} :
    IsDigit base c d ↔ charDigit c = some d ∧ d < base := by
  rw [charDigit_some, IsDigit]
  constructor
  · rintro ⟨h1, h2⟩; exact ⟨⟨by omega, h2⟩, h1⟩
  · rintro ⟨⟨_, h2⟩, h1⟩; exact ⟨h1, h2⟩

/-- What a correct accumulator step does; `M` is the largest representable magnitude. -/
structure StepOk {S : Type} (base M : Nat) (val : S → Nat) (flag : S → Bool) (step : Nat → S → Option S) : Prop where
  brk : ∀ d s, d < 36 → base ≤ d → step d s = none
  go : ∀ d s, d < base → (flag s = false → val s ≤ M) → ∃ s', step d s = some s' ∧
    (if flag s = true ∨ M / base < val s ∨ (val s = M / base ∧ M % base < d) then flag s' = true
     else flag s' = false ∧ val s' = val s * base + d)

/-- Loop invariant after the digits `ds`. -/
def Good (base M : Nat) (ds : List Nat) (v : Nat) (re : Bool) : Prop :=
  (re = false ∧ v = numVal base ds ∧ v ≤ M) ∨ (re = true ∧ M < numVal base ds)

theorem good_step {base M : Nat} (hb : 2 ≤ base) {ds : List Nat} {v : Nat} {re : Bool} (h : Good base M ds v re) {d : Nat}
    (hd : d < base) {v' : Nat} {re' : Bool}
    (hs : if re = true ∨ M / base < v ∨ (v = M / base ∧ M % base < d) then re' = true
     else re' = false ∧ v' = v * base + d) : Good base M (ds ++ [d]) v' re' := by
  have hdm := Nat.div_add_mod M base
  have hml := Nat.mod_lt M (show 0 < base by omega)
  unfold Good at *
  rw [numVal_snoc]
  generalize numVal base ds = N at *
  split at hs
  · right
    refine ⟨hs, ?_⟩
    rename_i hc
    rcases h with ⟨h1, h2, h3⟩ | ⟨h1, h2⟩
    · subst h2
      rw [h1] at hc
      rcases hc with hc | hc | ⟨hc, hc2⟩
      · cases hc
      · have : (M / base + 1) * base ≤ v * base := Nat.mul_le_mul_right _ hc
        have e : (M / base + 1) * base = base * (M / base) + base := by ring
        omega
      · rw [hc, Nat.mul_comm]; omega
    · have : N * 1 ≤ N * base := Nat.mul_le_mul_left _ (by omega)
      omega
  · rename_i hc
    simp only [not_or, not_and] at hc
    rcases h with ⟨h1, h2, h3⟩ | ⟨h1, h2⟩
    · left
      subst h2
      refine ⟨hs.1, hs.2, ?_⟩
      rw [hs.2]
      rcases Nat.lt_or_ge v (M / base) with h4 | h4
      · have : (v + 1) * base ≤ (M / base) * base := Nat.mul_le_mul_right _ h4
        have e : (v + 1) * base = v * base + base := by ring
        rw [Nat.mul_comm] at hdm
        omega
      · have h5 : v = M / base := by omega
        have := hc.2.2 h5
        rw [h5, Nat.mul_comm]; omega
    · exact absurd h1 hc.1

theorem step_exists {S : Type} {base M : Nat} {val : S → Nat} {flag : S → Bool} {step : Nat → S → Option S}
    (hb : 2 ≤ base) (hs : StepOk base M val flag step) {ds : List Nat} {s : S} (hg : Good base M ds (val s) (flag s))
    {d : Nat} (hd : d < base) : ∃ s', step d s = some s' ∧ Good base M (ds ++ [d]) (val s') (flag s') := by
  have hle : flag s = false → val s ≤ M := by
    intro h
    rcases hg with ⟨_, _, h3⟩ | ⟨h1, _⟩
    · exact h3
    · rw [h1] at h; cases h
  obtain ⟨s', h1, h2⟩ := hs.go d s hd hle
  exact ⟨s', h1, good_step hb hg hd h2⟩

theorem loopN_spec {S : Type} {base M : Nat} {val : S → Nat} {flag : S → Bool} {step : Nat → S → Option S}
    (hb : 2 ≤ base) (hb' : base ≤ 36) (hs : StepOk base M val flag step) (tail : List Byte) (cs rest : List Byte)
    (ds : List Nat) (hf : List.Forall₂ (IsDigit base) cs ds) (hr : ∀ c, rest.head? = some c → ∀ d, ¬ IsDigit base c d)
    (ds0 : List Nat) (s : S) (hg : Good base M ds0 (val s) (flag s)) (n : Nat) :
    ∃ s', digitLoopN step (cs ++ rest ++ tail) (cs ++ rest).length n s = .ok (n + ds.length, s') ∧
      Good base M (ds0 ++ ds) (val s') (flag s') := by
  induction hf generalizing ds0 s n with
  | nil =>
    refine ⟨s, ?_, by simpa using hg⟩
    cases rest with
    | nil => simp [digitLoopN]
    | cons c rest =>
      simp only [List.nil_append, List.length_cons, List.cons_append, digitLoopN, List.length_nil, Nat.add_zero]
      split
      · rfl
      · rename_i d hd
        have hnd := hr c rfl d
        rw [isDigit_iff hb'] at hnd
        have h36 := (charDigit_some.1 hd).1
        rw [hs.brk d s h36 (by simpa [hd] using hnd)]
  | @cons c d cs ds hcd _ ih =>
    rw [isDigit_iff hb'] at hcd
    obtain ⟨s', h1, h2⟩ := step_exists hb hs hg hcd.2
    obtain ⟨s'', h3, h4⟩ := ih (ds0 ++ [d]) s' h2 (n + 1)
    refine ⟨s'', ?_, by simpa using h4⟩
    simp only [List.cons_append, List.length_cons, digitLoopN, hcd.1, h1]
    rw [h3]; simp; omega

theorem loopZ_spec {S : Type} {base M : Nat} {val : S → Nat} {flag : S → Bool} {step : Nat → S → Option S}
    (hb : 2 ≤ base) (hb' : base ≤ 36) (hs : StepOk base M val flag step) (tail : List Byte) (cs rest : List Byte)
    (ds : List Nat) (hf : List.Forall₂ (IsDigit base) cs ds) (hr : ∀ c, rest.head? = some c → ∀ d, ¬ IsDigit base c d)
    (hz : (0 : Byte) ∉ cs ++ rest)
    (ds0 : List Nat) (s : S) (hg : Good base M ds0 (val s) (flag s)) (n : Nat) :
    ∃ s', digitLoopZ step (cs ++ rest ++ 0 :: tail) n s = .ok (n + ds.length, s') ∧
      Good base M (ds0 ++ ds) (val s') (flag s') := by
  induction hf generalizing ds0 s n with
  | nil =>
    refine ⟨s, ?_, by simpa using hg⟩
    cases rest with
    | nil => simp [digitLoopZ]
    | cons c rest =>
      have hc : c ≠ 0 := by intro h; simp [h] at hz
      simp only [List.nil_append, List.cons_append, digitLoopZ, List.length_nil, Nat.add_zero, if_neg hc]
      split
      · rfl
      · rename_i d hd
        have hnd := hr c rfl d
        rw [isDigit_iff hb'] at hnd
        have h36 := (charDigit_some.1 hd).1
        rw [hs.brk d s h36 (by simpa [hd] using hnd)]
  | @cons c d cs ds hcd _ ih =>
    rw [isDigit_iff hb'] at hcd
    have hc : c ≠ 0 := by intro h; simp [h] at hz
    obtain ⟨s', h1, h2⟩ := step_exists hb hs hg hcd.2
    obtain ⟨s'', h3, h4⟩ := ih (fun h => hz (by simp at h ⊢; tauto)) (ds0 ++ [d]) s' h2 (n + 1)
    refine ⟨s'', ?_, by simpa using h4⟩
    simp only [List.cons_append, digitLoopZ, hcd.1, h1, if_neg hc]
    rw [h3]; simp; omega

theorem scanStep_ok {w : Nat} (hw : 7 ≤ w) (base : Nat) (hb : 2 ≤ base) (hb' : base ≤ 36) (M : BitVec w) :
    StepOk base M.toNat (fun s : BitVec w × Bool => s.1.toNat) (fun s => s.2)
      (scanStep (BitVec.ofInt w base) (M / BitVec.ofInt w base) (M % BitVec.ofInt w base)) := by
  have hp : 128 ≤ 2 ^ w := Nat.pow_le_pow_right (show 0 < 2 by decide) hw
  have hub : (BitVec.ofInt w (base : Int)).toNat = base := by
    rw [BitVec.ofInt_natCast, BitVec.toNat_ofNat, Nat.mod_eq_of_lt (by omega)]
  constructor
  · intro d s hd h
    have hdn : (BitVec.ofNat w d).toNat = d := by rw [BitVec.toNat_ofNat, Nat.mod_eq_of_lt (by omega)]
    simp only [scanStep]
    rw [if_pos]
    rw [BitVec.le_def, hub, hdn]; exact h
  · intro d s hd hle
    have hdn : (BitVec.ofNat w d).toNat = d := by rw [BitVec.toNat_ofNat, Nat.mod_eq_of_lt (by omega)]
    simp only [scanStep]
    rw [if_neg (by rw [BitVec.le_def, hub, hdn]; omega)]
    simp only [Bool.or_eq_true, Bool.and_eq_true, decide_eq_true_eq, BitVec.lt_def, BitVec.toNat_udiv, BitVec.toNat_umod,
      hub, hdn, ← BitVec.toNat_inj, or_assoc]
    split
    · exact ⟨_, rfl, rfl⟩
    · rename_i hc
      refine ⟨_, rfl, ?_, ?_⟩
      · simpa using fun h => hc (Or.inl h)
      · have hf : s.2 = false := by simpa using fun h => hc (Or.inl h)
        have hg : Good base M.toNat [] 0 false := Or.inl ⟨rfl, rfl, by omega⟩
        have hv := hle hf
        -- the new value does not exceed M
        have hlt : s.1.toNat * base + d ≤ M.toNat := by
          simp only [not_or, not_and] at hc
          have hdm := Nat.div_add_mod M.toNat base
          rcases Nat.lt_or_ge s.1.toNat (M.toNat / base) with h4 | h4
          · have : (s.1.toNat + 1) * base ≤ (M.toNat / base) * base := Nat.mul_le_mul_right _ h4
            have e : (s.1.toNat + 1) * base = s.1.toNat * base + base := by ring
            rw [Nat.mul_comm] at hdm
            omega
          · have h5 : s.1.toNat = M.toNat / base := by omega
            have := hc.2.2 h5
            rw [h5, Nat.mul_comm]; omega
        have hM := M.isLt
        rw [BitVec.toNat_add, BitVec.toNat_mul, hub, hdn, Nat.mod_eq_of_lt (a := s.1.toNat * base) (by omega),
          Nat.mod_eq_of_lt (by omega)]

theorem good_nil (base M : Nat) : Good base M [] 0 false := Or.inl ⟨rfl, rfl, by omega⟩

theorem startsWithNumeral_exists (base : Nat) (s : List Byte) : ∃ ds, StartsWithNumeral base s ds := by
  induction s with
  | nil => exact ⟨[], [], [], rfl, .nil, by simp⟩
  | cons c s ih =>
    by_cases h : ∃ d, IsDigit base c d
    · obtain ⟨d, hd⟩ := h
      obtain ⟨ds, cs, rest, h1, h2, h3⟩ := ih
      exact ⟨d :: ds, c :: cs, rest, by simp [h1], .cons hd h2, h3⟩
    · exact ⟨[], [], c :: s, rfl, .nil, by intro c' hc' d hd; simp at hc'; subst hc'; exact h ⟨d, hd⟩⟩

theorem startsWithNumeral_unique {base : Nat} (hb : base ≤ 36) {s : List Byte} {ds es : List Nat}
    (h1 : StartsWithNumeral base s ds) (h2 : StartsWithNumeral base s es) : ds = es := by
  induction s generalizing ds es with
  | nil =>
    obtain ⟨cs, rest, h3, h4, _⟩ := h1; obtain ⟨cs', rest', h3', h4', _⟩ := h2
    have e1 : cs = [] := (List.append_eq_nil_iff.1 h3.symm).1
    have e2 : cs' = [] := (List.append_eq_nil_iff.1 h3'.symm).1
    subst e1 e2; cases h4; cases h4'; rfl
  | cons c s ih =>
    obtain ⟨cs, rest, h3, h4, h5⟩ := h1; obtain ⟨cs', rest', h3', h4', h5'⟩ := h2
    cases h4 with
    | nil =>
      cases h4' with
      | nil => rfl
      | @cons c' d' _ _ h6 _ =>
        simp at h3 h3'; subst h3
        exact absurd (h3'.1 ▸ h6) (h5 c rfl d')
    | @cons c1 d1 cs1 ds1 h6 h7 =>
      cases h4' with
      | nil =>
        simp at h3 h3'; subst h3'
        exact absurd (h3.1 ▸ h6) (h5' c rfl d1)
      | @cons c2 d2 cs2 ds2 h8 h9 =>
        simp at h3 h3'
        have : d1 = d2 := isDigit_unique hb (h3.1 ▸ h6) (h3'.1 ▸ h8)
        rw [this, ih ⟨cs1, rest, h3.2, h7, h5⟩ ⟨cs2, rest', h3'.2, h9, h5'⟩]

theorem baseOk_nat {base : Nat} (hb : 2 ≤ base) (hb' : base ≤ 36) : baseOk (base : Int) = true := by
  simp [baseOk]; omega

/-- The unsigned result, as specified. -/
theorem finishU_good {w : Nat} {base : Nat} {ds : List Nat} {v : BitVec w} {re : Bool}
    (hg : Good base (BitVec.allOnes w).toNat ds v.toNat re) (out : Option (BitVec w)) :
    finishU out ds.length v re = unsignedResult w base ds out := by
  have hp : 0 < 2 ^ w := Nat.pow_pos (by decide)
  rw [finishU, unsignedResult]
  rw [BitVec.toNat_allOnes] at hg
  simp only [List.length_eq_zero_iff]
  split
  · rfl
  · rcases hg with ⟨h1, h2, h3⟩ | ⟨h1, h2⟩
    · have h4 : numVal base ds < 2 ^ w := by omega
      rw [if_pos h4, h1, ← h2]
      simp
    · have h4 : ¬ numVal base ds < 2 ^ w := by omega
      rw [if_neg h4, h1]; simp

theorem scanUN_spec {w : Nat} (hw : 7 ≤ w) {base : Nat} (hb : 2 ≤ base) (hb' : base ≤ 36) (s tail : List Byte)
    (ds : List Nat) (h : StartsWithNumeral base s ds) (out : Option (BitVec w)) :
    scanUN w (some (s ++ tail)) s.length out base = .ok (unsignedResult w base ds out) := by
  obtain ⟨cs, rest, rfl, h2, h3⟩ := h
  rw [scanUN, assert, if_pos (baseOk_nat hb hb'), ok_bind, assert, if_pos (by simp), ok_bind]
  split
  · rename_i h0
    have : cs = [] := by simp at h0; exact h0.1
    subst this; cases h2
    simp [unsignedResult]
  · obtain ⟨s', h4, h5⟩ := loopN_spec hb hb' (scanStep_ok hw base hb hb' (BitVec.allOnes w)) tail cs rest ds h2 h3 []
      (0, false) (by simpa using good_nil _ _) 0
    simp only [Option.getD_some]
    rw [h4, ok_bind]
    simp only [List.nil_append, Nat.zero_add] at h5 ⊢
    rw [finishU_good h5]

theorem scanU_spec {w : Nat} (hw : 7 ≤ w) {base : Nat} (hb : 2 ≤ base) (hb' : base ≤ 36) (s tail : List Byte)
    (hz : (0 : Byte) ∉ s) (ds : List Nat) (h : StartsWithNumeral base s ds) (out : Option (BitVec w)) :
    scanU w (some (s ++ 0 :: tail)) out base = .ok (unsignedResult w base ds out) := by
  obtain ⟨cs, rest, rfl, h2, h3⟩ := h
  rw [scanU, assert, if_pos (baseOk_nat hb hb'), ok_bind]
  obtain ⟨s', h4, h5⟩ := loopZ_spec hb hb' (scanStep_ok hw base hb hb' (BitVec.allOnes w)) tail cs rest ds h2 h3 hz []
    (0, false) (by simpa using good_nil _ _) 0
  simp only
  rw [h4, ok_bind]
  simp only [List.nil_append, Nat.zero_add] at h5 ⊢
  rw [finishU_good h5]

theorem negS_wrap {w : Nat} (x : BitVec w) : negS .wrap x = .ok (-x) := by
  rw [negS]; split
  · rename_i h; rw [h, BitVec.neg_intMin]
  · rfl

theorem negS_strict {w : Nat} (x : BitVec w) (h : x ≠ BitVec.intMin w) : negS .strict x = .ok (-x) := by
  rw [negS, if_neg h]

/-- The signed result, as specified. In strict mode the text of the least value is excluded. -/
theorem finishI_good {w : Nat} (hw : 0 < w) {base : Nat} {neg : Bool} {ds : List Nat} {v : BitVec w} {re : Bool}
    (hg : Good base (if neg then BitVec.intMin w else BitVec.intMax w).toNat ds v.toNat re) (out : Option (BitVec w))
    (sem : Signed) (hs : sem = .wrap ∨ (signedValue base neg ds ≠ -2 ^ (w - 1)) ∨ out = none) :
    finishI sem out neg ((if neg then 1 else 0) + ds.length) v re = .ok (signedResult w base neg ds out) := by
  have hp : 0 < 2 ^ (w - 1) := Nat.pow_pos (by decide)
  have hp2 : 2 ^ w = 2 * 2 ^ (w - 1) := by rw [← Nat.pow_succ']; congr 1; omega
  have hmin : (BitVec.intMin w).toNat = 2 ^ (w - 1) := by rw [BitVec.toNat_intMin]; apply Nat.mod_eq_of_lt; omega
  have hmax : (BitVec.intMax w).toNat = 2 ^ (w - 1) - 1 := by rw [BitVec.toNat_intMax]
  rw [finishI.eq_def, signedResult]
  by_cases hd : ds = []
  · subst hd
    cases neg <;> simp
  · have hl : 0 < ds.length := List.length_pos_iff.2 hd
    rw [if_neg (by cases neg <;> simp <;> omega), if_neg hd]
    have hcast : ((2 : Int) ^ (w - 1)) = ((2 ^ (w - 1) : Nat) : Int) := by norm_cast
    rw [signedValue, hcast] at hs
    rw [signedValue, hcast]
    generalize hP : 2 ^ (w - 1) = P at *
    rcases hg with ⟨h1, h2, h3⟩ | ⟨h1, h2⟩
    · rw [← h2] at hs ⊢
      have hv : BitVec.ofInt w (v.toNat : Int) = v := by rw [BitVec.ofInt_natCast]; simp
      cases neg
      · simp only [Bool.false_eq_true, if_false, hmax] at *
        have h4 : -(P : Int) ≤ (v.toNat : Int) ∧ (v.toNat : Int) < P := by omega
        rw [if_pos h4]
        cases out <;> simp [h1, hv]
      · simp only [if_true, hmin] at h3 hs ⊢
        have h4 : -(P : Int) ≤ -(v.toNat : Int) ∧ -(v.toNat : Int) < P := by omega
        rw [if_pos h4, h1]
        cases out with
        | none => simp
        | some o =>
          have : negS sem v = .ok (-v) := by
            rcases hs with hs | hs | hs
            · rw [hs, negS_wrap]
            · cases sem
              · apply negS_strict
                intro he; apply hs; rw [he, hmin]
              · exact negS_wrap v
            · cases hs
          simp [this, BitVec.ofInt_neg, hv]
    · cases neg
      · simp only [Bool.false_eq_true, if_false, hmax] at h2 ⊢
        have h4 : ¬ (-(P : Int) ≤ (numVal base ds : Int) ∧ (numVal base ds : Int) < P) := by omega
        rw [if_neg h4, h1]
        cases out <;> simp
      · simp only [if_true, hmin] at h2 ⊢
        have h4 : ¬ (-(P : Int) ≤ -(numVal base ds : Int) ∧ -(numVal base ds : Int) < P) := by omega
        rw [if_neg h4, h1]
        cases out <;> simp

/-- In strict mode the text of the least value makes the scanners negate it: signed overflow. -/
theorem finishI_min {w : Nat} (hw : 0 < w) {base : Nat} {neg : Bool} {ds : List Nat} {v : BitVec w} {re : Bool}
    (hg : Good base (if neg then BitVec.intMin w else BitVec.intMax w).toNat ds v.toNat re) (o : BitVec w)
    (hs : signedValue base neg ds = -2 ^ (w - 1)) :
    finishI .strict (some o) neg ((if neg then 1 else 0) + ds.length) v re = .error .overflow := by
  have hp : 0 < 2 ^ (w - 1) := Nat.pow_pos (by decide)
  have hp2 : 2 ^ w = 2 * 2 ^ (w - 1) := by rw [← Nat.pow_succ']; congr 1; omega
  have hmin : (BitVec.intMin w).toNat = 2 ^ (w - 1) := by rw [BitVec.toNat_intMin]; apply Nat.mod_eq_of_lt; omega
  have hcast : ((2 : Int) ^ (w - 1)) = ((2 ^ (w - 1) : Nat) : Int) := by norm_cast
  rw [signedValue, hcast] at hs
  cases neg
  · simp only [Bool.false_eq_true, if_false] at hs; omega
  · simp only [if_true, hmin] at hs hg
    have hd : ds ≠ [] := by rintro rfl; simp [numVal] at hs
    have hl : 0 < ds.length := List.length_pos_iff.2 hd
    have hv : re = false ∧ v = BitVec.intMin w := by
      rcases hg with ⟨h1, h2, h3⟩ | ⟨h1, h2⟩
      · refine ⟨h1, BitVec.eq_of_toNat_eq ?_⟩
        rw [hmin]; omega
      · omega
    rw [finishI.eq_def, if_neg (by simp; omega), hv.1, hv.2, negS]
    simp [bind, Except.bind]

/-- The signed scanners run the digit loop and then `finishI`. -/
theorem scanIN_loop {w : Nat} (hw : 7 ≤ w) {base : Nat} (hb : 2 ≤ base) (hb' : base ≤ 36) (s tail : List Byte)
    (neg : Bool) (ds : List Nat) (h : StartsWithSigned base s neg ds) :
    ∃ (v : BitVec w) (re : Bool), Good base (if neg then BitVec.intMin w else BitVec.intMax w).toNat ds v.toNat re ∧
      ∀ (out : Option (BitVec w)) (sem : Signed), scanIN w sem (some (s ++ tail)) s.length out base
        = finishI sem out neg ((if neg then 1 else 0) + ds.length) v re := by
  cases s with
  | nil =>
    cases neg
    · obtain ⟨h1, cs, rest, h2, h3, h4⟩ := h
      have e1 : cs = [] := (List.append_eq_nil_iff.1 h2.symm).1
      subst e1; cases h3
      refine ⟨0, false, by simpa using good_nil _ _, fun out sem => ?_⟩
      rw [scanIN, assert, if_pos (baseOk_nat hb hb'), ok_bind, assert, if_pos (by simp), ok_bind]
      simp [finishI]
    · obtain ⟨s', h1, h2⟩ := h; cases h1
  | cons c s =>
    cases neg
    · obtain ⟨h1, cs, rest, h2, h3, h4⟩ := h
      have hc : decide (c = 45) = false := by simpa using h1
      obtain ⟨s', h5, h6⟩ := loopN_spec hb hb' (scanStep_ok hw base hb hb' (BitVec.intMax w)) tail cs rest ds h3 h4 []
        (0, false) (by simpa using good_nil _ _) 0
      refine ⟨s'.1, s'.2, by simpa using h6, fun out sem => ?_⟩
      rw [scanIN, assert, if_pos (baseOk_nat hb hb'), ok_bind, assert, if_pos (by simp), ok_bind, if_neg (by simp)]
      simp only [Option.getD_some, List.cons_append, rd, List.getElem?_cons_zero, ok_bind, List.tail_cons]
      simp only [hc, Bool.false_eq_true, if_false]
      rw [← List.cons_append, h2, h5, ok_bind]
    · obtain ⟨s', h1, cs, rest, h2, h3, h4⟩ := h
      obtain ⟨rfl, rfl⟩ : c = 45 ∧ s = s' := by simpa using h1
      obtain ⟨s', h5, h6⟩ := loopN_spec hb hb' (scanStep_ok hw base hb hb' (BitVec.intMin w)) tail cs rest ds h3 h4 []
        (0, false) (by simpa using good_nil _ _) 1
      refine ⟨s'.1, s'.2, by simpa using h6, fun out sem => ?_⟩
      rw [scanIN, assert, if_pos (baseOk_nat hb hb'), ok_bind, assert, if_pos (by simp), ok_bind, if_neg (by simp)]
      simp only [Option.getD_some, List.cons_append, rd, List.getElem?_cons_zero, ok_bind, List.tail_cons]
      simp only [decide_true, if_true]
      rw [show (45 :: s).length - 1 = s.length by simp, h2, h5, ok_bind]

theorem scanI_loop {w : Nat} (hw : 7 ≤ w) {base : Nat} (hb : 2 ≤ base) (hb' : base ≤ 36) (s tail : List Byte)
    (hz : (0 : Byte) ∉ s) (neg : Bool) (ds : List Nat) (h : StartsWithSigned base s neg ds) :
    ∃ (v : BitVec w) (re : Bool), Good base (if neg then BitVec.intMin w else BitVec.intMax w).toNat ds v.toNat re ∧
      ∀ (out : Option (BitVec w)) (sem : Signed), scanI w sem (some (s ++ 0 :: tail)) out base
        = finishI sem out neg ((if neg then 1 else 0) + ds.length) v re := by
  cases neg
  · obtain ⟨h1, cs, rest, h2, h3, h4⟩ := h
    obtain ⟨s', h5, h6⟩ := loopZ_spec hb hb' (scanStep_ok hw base hb hb' (BitVec.intMax w)) tail cs rest ds h3 h4
      (h2 ▸ hz) [] (0, false) (by simpa using good_nil _ _) 0
    have hc : rd (s ++ 0 :: tail) 0 = .ok ((s ++ 0 :: tail).head (by simp)) := by
      cases s <;> simp [rd]
    have hd : decide ((s ++ 0 :: tail).head (by simp) = 45) = false := by
      cases s with
      | nil => simp
      | cons c s => simp at h1 ⊢; exact decide_eq_false h1
    refine ⟨s'.1, s'.2, by simpa using h6, fun out sem => ?_⟩
    rw [scanI, assert, if_pos (baseOk_nat hb hb'), ok_bind]
    simp only [hc, ok_bind, hd, Bool.false_eq_true, if_false]
    rw [h2, h5, ok_bind]
  · obtain ⟨s', rfl, cs, rest, h2, h3, h4⟩ := h
    obtain ⟨s', h5, h6⟩ := loopZ_spec hb hb' (scanStep_ok hw base hb hb' (BitVec.intMin w)) tail cs rest ds h3 h4
      (fun h => hz (by simp [h2]; simp at h; tauto)) [] (0, false) (by simpa using good_nil _ _) 1
    refine ⟨s'.1, s'.2, by simpa using h6, fun out sem => ?_⟩
    rw [scanI, assert, if_pos (baseOk_nat hb hb'), ok_bind]
    simp only [List.cons_append, rd, List.getElem?_cons_zero, ok_bind, decide_true, if_true, List.tail_cons]
    rw [h2, h5, ok_bind]

theorem scanIN_spec {w : Nat} (hw : 7 ≤ w) {base : Nat} (hb : 2 ≤ base) (hb' : base ≤ 36) (s tail : List Byte)
    (neg : Bool) (ds : List Nat) (h : StartsWithSigned base s neg ds) (out : Option (BitVec w))
    (sem : Signed) (hs : sem = .wrap ∨ (signedValue base neg ds ≠ -2 ^ (w - 1)) ∨ out = none) :
    scanIN w sem (some (s ++ tail)) s.length out base = .ok (signedResult w base neg ds out) := by
  obtain ⟨v, re, h1, h2⟩ := scanIN_loop hw hb hb' s tail neg ds h
  rw [h2]; exact finishI_good (by omega) h1 out sem hs

theorem scanI_spec {w : Nat} (hw : 7 ≤ w) {base : Nat} (hb : 2 ≤ base) (hb' : base ≤ 36) (s tail : List Byte)
    (hz : (0 : Byte) ∉ s)
    (neg : Bool) (ds : List Nat) (h : StartsWithSigned base s neg ds) (out : Option (BitVec w))
    (sem : Signed) (hs : sem = .wrap ∨ (signedValue base neg ds ≠ -2 ^ (w - 1)) ∨ out = none) :
    scanI w sem (some (s ++ 0 :: tail)) out base = .ok (signedResult w base neg ds out) := by
  obtain ⟨v, re, h1, h2⟩ := scanI_loop hw hb hb' s tail hz neg ds h
  rw [h2]; exact finishI_good (by omega) h1 out sem hs

theorem scanIN_min {w : Nat} (hw : 7 ≤ w) {base : Nat} (hb : 2 ≤ base) (hb' : base ≤ 36) (s tail : List Byte)
    (neg : Bool) (ds : List Nat) (h : StartsWithSigned base s neg ds) (o : BitVec w)
    (hs : signedValue base neg ds = -2 ^ (w - 1)) :
    scanIN w .strict (some (s ++ tail)) s.length (some o) base = .error .overflow := by
  obtain ⟨v, re, h1, h2⟩ := scanIN_loop hw hb hb' s tail neg ds h
  rw [h2]; exact finishI_min (by omega) h1 o hs

theorem scanI_min {w : Nat} (hw : 7 ≤ w) {base : Nat} (hb : 2 ≤ base) (hb' : base ≤ 36) (s tail : List Byte)
    (hz : (0 : Byte) ∉ s) (neg : Bool) (ds : List Nat) (h : StartsWithSigned base s neg ds) (o : BitVec w)
    (hs : signedValue base neg ds = -2 ^ (w - 1)) :
    scanI w .strict (some (s ++ 0 :: tail)) (some o) base = .error .overflow := by
  obtain ⟨v, re, h1, h2⟩ := scanI_loop hw hb hb' s tail hz neg ds h
  rw [h2]; exact finishI_min (by omega) h1 o hs

theorem startsWithSigned_exists (base : Nat) (s : List Byte) : ∃ neg ds, StartsWithSigned base s neg ds := by
  by_cases h : s.head? = some 45
  · cases s with
    | nil => cases h
    | cons c s =>
      simp at h; subst h
      obtain ⟨ds, h⟩ := startsWithNumeral_exists base s
      exact ⟨true, ds, s, rfl, h⟩
  · obtain ⟨ds, h2⟩ := startsWithNumeral_exists base s
    exact ⟨false, ds, h, h2⟩

end Tm.Conv
