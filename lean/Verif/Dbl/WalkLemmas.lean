import Verif.Dbl.Model
import Verif.Dbl.Spec
import Mathlib.Tactic.IntervalCases

/-! # Reading digits -/

namespace Tm.Dbl
open Tm.Conv Tm.Num

/-- Digits with a dot among them. -/
def Walk (w : List Byte) : Prop := (∀ c ∈ w, isdigit c = true ∨ c = 46) ∧ w.count 46 ≤ 1

/-- The digits of a text. -/
def digs (w : List Byte) : List Nat := (w.filter isdigit).map (fun c => c.toNat - 48)

theorem Walk.drop {w : List Byte} (h : Walk w) (k : Nat) : Walk (w.drop k) :=
  ⟨fun c hc => h.1 c (List.mem_of_mem_drop hc), le_trans (List.Sublist.count_le _ (List.drop_sublist _ _)) h.2⟩

theorem isdigit_dot : isdigit 46 = false := by decide

theorem isdigit_iff {c : Byte} : isdigit c = true ↔ 48 ≤ c.toNat ∧ c.toNat ≤ 57 := by simp [isdigit]

theorem digs_cons_digit {c : Byte} {w : List Byte} (h : isdigit c = true) : digs (c :: w) = (c.toNat - 48) :: digs w := by
  simp [digs, h]

theorem digs_cons_dot {w : List Byte} : digs (46 :: w) = digs w := by
  unfold digs
  rw [List.filter_cons_of_neg (by decide)]

theorem digs_append (a b : List Byte) : digs (a ++ b) = digs a ++ digs b := by simp [digs]

theorem digs_lt {w : List Byte} {d : Nat} (h : d ∈ digs w) : d < 10 := by
  simp only [digs, List.mem_map, List.mem_filter] at h
  obtain ⟨c, ⟨_, hc⟩, rfl⟩ := h
  have := isdigit_iff.mp hc
  omega

theorem digs_length_le (w : List Byte) : (digs w).length ≤ w.length := by
  simp only [digs, List.length_map]; exact List.length_filter_le _ _

theorem digs_drop_length (w : List Byte) (k : Nat) : (digs w).length ≤ (digs (w.drop k)).length + k := by
  have h := digs_append (w.take k) (w.drop k)
  rw [List.take_append_drop] at h
  rw [h, List.length_append]
  have h1 := digs_length_le (w.take k)
  have h2 : (w.take k).length ≤ k := List.length_take_le _ _
  omega

theorem walk_length {w : List Byte} (h : Walk w) : w.length ≤ (digs w).length + 1 := by
  obtain ⟨h1, h2⟩ := h
  have : w.length = (digs w).length + w.count 46 := by
    clear h2
    induction w with
    | nil => rfl
    | cons c w ih =>
      have ih := ih (fun c hc => h1 c (List.mem_cons_of_mem _ hc))
      rcases h1 c List.mem_cons_self with h | h
      · rw [digs_cons_digit h, List.count_cons_of_ne (by rintro rfl; exact absurd h (by decide))]
        simp only [List.length_cons]
        omega
      · subst h
        rw [digs_cons_dot, List.count_cons_self]
        simp only [List.length_cons]
        omega
  omega

/-- Reading on from a number. -/
def readOn (x : Nat) (ds : List Nat) : Nat := ds.foldl (fun a d => a * 10 + d) x

theorem readOn_zero (ds : List Nat) : readOn 0 ds = numVal 10 ds := rfl

theorem readOn_eq (x : Nat) (ds : List Nat) : readOn x ds = x * 10 ^ ds.length + numVal 10 ds := by
  induction ds generalizing x with
  | nil => simp [readOn, numVal]
  | cons d ds ih =>
    have h1 := ih (x * 10 + d)
    have h2 := ih d
    have h3 : readOn x (d :: ds) = readOn (x * 10 + d) ds := rfl
    have h4 : numVal 10 (d :: ds) = readOn d ds := by simp [numVal, readOn]
    rw [h3, h4, h1, h2, List.length_cons, pow_succ]
    ring

theorem numVal_append (a b : List Nat) : numVal 10 (a ++ b) = numVal 10 a * 10 ^ b.length + numVal 10 b := by
  rw [← readOn_eq]; simp [numVal, readOn]

theorem numVal_lt {ds : List Nat} (h : ∀ d ∈ ds, d < 10) : numVal 10 ds < 10 ^ ds.length := by
  induction ds using List.reverseRecOn with
  | nil => simp [numVal]
  | append_singleton ds d ih =>
    rw [numVal_append]
    have h1 := ih (fun d hd => h d (by simp [hd]))
    have h2 := h d (by simp)
    have h3 : numVal 10 [d] = d := by simp [numVal]
    rw [h3, List.length_append, List.length_singleton, pow_succ]
    omega

theorem digits_walk {w : List Byte} (h : Walk w) (n j x r : Nat) (hn : n ≤ (digs w).length) (hx : x < 10 ^ j) (hj : j + n ≤ 9) :
    ∃ k ≤ w.length, (∀ t, digits (w ++ t) n r x = .ok (r + k, ((readOn x ((digs w).take n) : Nat) : Int))) ∧
      digs (w.drop k) = (digs w).drop n := by
  induction n generalizing w j x r with
  | zero => exact ⟨0, Nat.zero_le _, fun t => by simp [digits, readOn], by simp⟩
  | succ n ih =>
    have hstep : ∀ (c : Byte) (v : List Byte), isdigit c = true → Walk v → n ≤ (digs v).length → ∀ r,
        ∃ k ≤ v.length, (∀ t, digits (v ++ t) n r ((x * 10 + (c.toNat - 48) : Nat) : Int) =
          .ok (r + k, ((readOn (x * 10 + (c.toNat - 48)) ((digs v).take n) : Nat) : Int))) ∧ digs (v.drop k) = (digs v).drop n := by
      intro c v hc hv hn r
      have hd := isdigit_iff.mp hc
      refine ih hv (j + 1) _ r hn ?_ (by omega)
      rw [pow_succ]
      omega
    have hbound : ∀ c : Byte, isdigit c = true → ¬ ((x : Int) * 10 + ((c.toNat : Int) - 48) < -2 ^ 31 ∨
        (2 : Int) ^ 31 ≤ (x : Int) * 10 + ((c.toNat : Int) - 48)) := by
      intro c hc
      have hd := isdigit_iff.mp hc
      have h1 : 10 ^ j ≤ 10 ^ 8 := Nat.pow_le_pow_right (by norm_num) (by omega)
      omega
    have hcast : ∀ c : Byte, isdigit c = true → (x : Int) * 10 + ((c.toNat : Int) - 48) = ((x * 10 + (c.toNat - 48) : Nat) : Int) := by
      intro c hc
      have hd := isdigit_iff.mp hc
      push_cast [Nat.cast_sub hd.1]
      rfl
    cases w with
    | nil => simp [digs] at hn
    | cons c w =>
      have hw : Walk w := h.drop 1
      rcases h.1 c List.mem_cons_self with hc | hc
      · rw [digs_cons_digit hc] at hn
        obtain ⟨k, hk, h1, h2⟩ := hstep c w hc hw (by simpa using hn) (r + 0 + 1)
        refine ⟨k + 1, by simpa using hk, fun t => ?_, ?_⟩
        · have hne : c ≠ 46 := by rintro rfl; exact absurd hc (by decide)
          simp only [digits, rd, List.cons_append, List.getElem?_cons_zero, ok_bind, if_neg hne, if_neg (hbound c hc)]
          rw [hcast c hc]
          simp only [List.drop_succ_cons, List.drop_zero]
          rw [h1 t, digs_cons_digit hc]
          simp only [List.take_succ_cons]
          congr 2
          omega
        · rw [digs_cons_digit hc]
          simpa using h2
      · subst hc
        cases w with
        | nil => rw [digs_cons_dot] at hn; simp [digs] at hn
        | cons c w =>
          have hc : isdigit c = true := by
            rcases hw.1 c List.mem_cons_self with hc | hc
            · exact hc
            · subst hc
              have := h.2
              simp at this
          rw [digs_cons_dot, digs_cons_digit hc] at hn
          obtain ⟨k, hk, h1, h2⟩ := hstep c w hc (hw.drop 1) (by simpa using hn) (r + 1 + 1)
          refine ⟨k + 2, by simpa using hk, fun t => ?_, ?_⟩
          · simp only [digits, rd, List.cons_append, List.getElem?_cons_zero, ok_bind, if_true, List.getElem?_cons_succ,
              if_neg (hbound c hc)]
            rw [hcast c hc]
            simp only [List.drop_succ_cons, List.drop_zero]
            rw [h1 t, digs_cons_dot, digs_cons_digit hc]
            simp only [List.take_succ_cons]
            congr 2
            omega
          · rw [digs_cons_dot, digs_cons_digit hc]
            simpa using h2

/-- The number that `scan_ScanMantissa` makes from up to 18 digits. -/
def mant (a : Nat) : F := ((F.fin 1000000000).mul (.fin ((a / 10 ^ 9 : Nat) : ℚ))).add (.fin ((a % 10 ^ 9 : Nat) : ℚ))

theorem scanMantissa_walk {w : List Byte} (h : Walk w) (n : Nat) (hn : n ≤ (digs w).length) :
    ∃ k ≤ w.length, (∀ t, scanMantissa (w ++ t) n = .ok (k, mant (numVal 10 ((digs w).take (min n 18))))) ∧
      digs (w.drop k) = (digs w).drop (min n 18) := by
  obtain ⟨k1, hk1, h1, h2⟩ := digits_walk h (min n 18 - 9) 0 0 0 (by omega) (by norm_num) (by omega)
  obtain ⟨k2, hk2, h3, h4⟩ := digits_walk (h.drop k1) (min (min n 18) 9) 0 0 0 (by rw [h2, List.length_drop]; omega)
    (by norm_num) (by omega)
  have hm : min n 18 - 9 + min (min n 18) 9 = min n 18 := by omega
  refine ⟨k1 + k2, by rw [List.length_drop] at hk2; omega, fun t => ?_, ?_⟩
  · unfold scanMantissa
    have e1 := h1 t
    have e2 := h3 t
    simp only [Nat.cast_zero] at e1 e2
    simp only [e1, ok_bind, Nat.zero_add]
    rw [List.drop_append_of_le_length hk1, e2]
    simp only [ok_bind, Nat.zero_add]
    rw [h2, readOn_zero, readOn_zero]
    have hsplit : (digs w).take (min n 18) = (digs w).take (min n 18 - 9) ++ ((digs w).drop (min n 18 - 9)).take (min (min n 18) 9) := by
      rw [← hm, List.take_add, hm]
    have hlen : (((digs w).drop (min n 18 - 9)).take (min (min n 18) 9)).length = min (min n 18) 9 := by
      rw [List.length_take, List.length_drop]; omega
    have hlow : numVal 10 (((digs w).drop (min n 18 - 9)).take (min (min n 18) 9)) < 10 ^ 9 := by
      refine lt_of_lt_of_le (numVal_lt (fun d hd => digs_lt (List.mem_of_mem_drop (List.mem_of_mem_take hd)))) ?_
      rw [hlen]
      exact Nat.pow_le_pow_right (by norm_num) (by omega)
    have hv : numVal 10 ((digs w).take (min n 18)) =
        numVal 10 ((digs w).take (min n 18 - 9)) * 10 ^ 9 + numVal 10 (((digs w).drop (min n 18 - 9)).take (min (min n 18) 9)) := by
      rw [hsplit, numVal_append, hlen]
      by_cases hc : min n 18 ≤ 9
      · rw [show min n 18 - 9 = 0 by omega]
        simp [numVal]
      · rw [show min (min n 18) 9 = 9 by omega]
    rw [hv]
    unfold mant
    generalize numVal 10 ((digs w).take (min n 18 - 9)) = a at *
    generalize numVal 10 (((digs w).drop (min n 18 - 9)).take (min (min n 18) 9)) = b at *
    rw [show (a * 10 ^ 9 + b) / 10 ^ 9 = a by omega, show (a * 10 ^ 9 + b) % 10 ^ 9 = b by omega]
    norm_cast
  · rw [← List.drop_drop, h4, h2, List.drop_drop, hm]

theorem leadingZeroes_walk (w : List Byte) (i : Nat) (hi : i ≤ w.length) :
    ∃ z ≤ i, (∀ t, leadingZeroes (w ++ t) i = .ok z) ∧ (∀ c ∈ w.take z, c = 48 ∨ c = 46) ∧
      (z < i → ∀ c, w[z]? = some c → c ≠ 48 ∧ c ≠ 46) := by
  induction i generalizing w with
  | zero => exact ⟨0, le_refl _, fun t => by simp [leadingZeroes], by simp, by omega⟩
  | succ i ih =>
    cases w with
    | nil => simp at hi
    | cons c w =>
      by_cases hc : c = 48 ∨ c = 46
      · obtain ⟨z, hz, h1, h2, h3⟩ := ih w (by simpa using hi)
        refine ⟨z + 1, by omega, fun t => ?_, ?_, fun hlt c' hc' => h3 (by omega) c' (by simpa using hc')⟩
        · rw [List.cons_append, leadingZeroes, if_pos hc, h1 t]; rfl
        · intro d hd
          rw [List.take_succ_cons, List.mem_cons] at hd
          rcases hd with rfl | hd
          · exact hc
          · exact h2 d hd
      · refine ⟨0, by omega, fun t => ?_, by simp, fun _ c' hc' => ?_⟩
        · rw [List.cons_append, leadingZeroes, if_neg hc]
        · have : c = c' := by simpa using hc'
          subst this
          exact not_or.mp hc

/-- What is done with the digits. -/
def combineParts (a b f : Nat) (e : Int) : C F := do
  let frac ← pow10 (mant b) (-(f : Int))
  pow10 ((mant a).add frac) e

theorem mant_zero : mant 0 = .fin 0 := by
  unfold mant
  simp [F.mul, F.add, rnd_zero]

/-- Before the first `i` chars end there is a digit that is not zero and no dot in front of it, or there is no dot at all. -/
def Plain (w : List Byte) (i : Nat) : Prop :=
  46 ∉ w.take i ∨ ∃ a c b, w = a ++ c :: b ∧ 46 ∉ a ∧ c ≠ 46 ∧ c ≠ 48 ∧ a.length < i

theorem digs_nodot {w : List Byte} (h : ∀ c ∈ w, isdigit c = true) : (digs w).length = w.length := by
  simp only [digs, List.length_map]
  rw [List.filter_eq_self.mpr h]

theorem digs_drop_nodot {w : List Byte} (h : Walk w) (k : Nat) (hk : k ≤ w.length) (hd : 46 ∉ w.take k) :
    digs (w.drop k) = (digs w).drop k := by
  have h1 : (digs (w.take k)).length = k := by
    rw [digs_nodot, List.length_take]
    · omega
    · intro c hc
      rcases h.1 c (List.mem_of_mem_take hc) with h2 | h2
      · exact h2
      · subst h2; exact absurd hc hd
  have h2 := digs_append (w.take k) (w.drop k)
  rw [List.take_append_drop] at h2
  rw [h2, List.drop_append_of_le_length h1.ge, List.drop_of_length_le h1.le, List.nil_append]

theorem digs_zeroes {w : List Byte} (h : ∀ c ∈ w, c = 48 ∨ c = 46) : numVal 10 (digs w) = 0 := by
  induction w with
  | nil => rfl
  | cons c w ih =>
    have ih := ih (fun c hc => h c (List.mem_cons_of_mem _ hc))
    rcases h c List.mem_cons_self with rfl | rfl
    · rw [digs_cons_digit (by decide)]
      have : numVal 10 (((48 : Byte).toNat - 48) :: digs w) = readOn 0 (digs w) := by simp [numVal, readOn]
      rw [this, readOn_zero, ih]
    · rw [digs_cons_dot, ih]

theorem digs_take_nodot {w : List Byte} (h : Walk w) (k : Nat) (hk : k ≤ w.length) (hd : 46 ∉ w.take k) :
    digs (w.take k) = (digs w).take k := by
  have h1 : (digs (w.take k)).length = k := by
    rw [digs_nodot, List.length_take]
    · omega
    · intro c hc
      rcases h.1 c (List.mem_of_mem_take hc) with h2 | h2
      · exact h2
      · subst h2; exact absurd hc hd
  have h2 := digs_append (w.take k) (w.drop k)
  rw [List.take_append_drop] at h2
  rw [h2, List.take_append_of_le_length h1.ge, List.take_of_length_le h1.le]

theorem magnitude_walk {w : List Byte} (h : Walk w) (i f : Nat) (hif : (digs w).length = i + f) (e : Int) :
    ∃ a b : Nat, a < 10 ^ 18 ∧ b < 10 ^ 18 ∧ (∀ t, magnitude (w ++ t) i f e = combineParts a b f e) ∧
      (Plain w i → numVal 10 ((digs w).take i) < 10 ^ 18 → f ≤ 18 → a = numVal 10 ((digs w).take i) ∧ b = numVal 10 ((digs w).drop i)) := by
  have hlen := digs_length_le w
  obtain ⟨z, hz, hz1, hz2, hz3⟩ := leadingZeroes_walk w i (by omega)
  have hlt : ∀ (v : List Byte) (n : Nat), numVal 10 ((digs v).take (min n 18)) < 10 ^ 18 := by
    intro v n
    refine lt_of_lt_of_le (numVal_lt (fun d hd => digs_lt (List.mem_of_mem_take hd))) ?_
    apply Nat.pow_le_pow_right (by norm_num)
    rw [List.length_take]
    omega
  have hplain : Plain w i → 46 ∉ w.take z := by
    rintro (hp | ⟨a, c, b, rfl, h1, h2, h3, h4⟩) hm
    · exact hp (by
        have : w.take z <+: w.take i := List.take_prefix_take_left hz
        exact this.subset hm)
    · have hza : z ≤ a.length := by
        by_contra hc
        have hm2 : c ∈ (a ++ c :: b).take z := by
          rw [List.take_append, show z - a.length = (z - a.length - 1) + 1 by omega, List.take_succ_cons]
          simp
        rcases hz2 c hm2 with rfl | rfl
        · exact h3 rfl
        · exact h2 rfl
      rw [List.take_append_of_le_length hza] at hm
      exact h1 (List.mem_of_mem_take hm)
  by_cases hc : z < i
  · have hdl := digs_drop_length w z
    obtain ⟨k, hk, hk1, hk2⟩ := scanMantissa_walk (h.drop z) (i - z) (by omega)
    have hlen2 : f ≤ (digs (w.drop (z + k))).length := by
      rw [← List.drop_drop, hk2, List.length_drop]
      omega
    obtain ⟨k', hk', hk1', hk2'⟩ := scanMantissa_walk (h.drop (z + k)) f hlen2
    refine ⟨_, _, hlt (w.drop z) (i - z), hlt (w.drop (z + k)) f, fun t => ?_, fun hp h18 hf18 => ?_⟩
    · unfold magnitude combineParts
      simp only [hz1 t, ok_bind, if_pos hc]
      rw [List.drop_append_of_le_length (by omega), hk1 t]
      simp only [ok_bind, pure_eq_ok]
      rw [List.drop_append_of_le_length (by rw [List.length_drop] at hk; omega), hk1' t]
      simp only [ok_bind]
    · have hd := digs_drop_nodot h z (by omega) (hplain hp)
      have ht := digs_take_nodot h z (by omega) (hplain hp)
      have h0 := digs_zeroes hz2
      have hsplit : (digs w).take i = (digs w).take z ++ ((digs w).drop z).take (i - z) := by
        rw [← List.take_add, Nat.add_sub_cancel' hz]
      have h18 : i - z ≤ 18 := by
        obtain ⟨c, v, hcv⟩ : ∃ c v, w.drop z = c :: v := by
          cases hdz : w.drop z with
          | nil => have := congrArg List.length hdz; rw [List.length_drop, List.length_nil] at this; omega
          | cons c v => exact ⟨c, v, rfl⟩
        have hcz : w[z]? = some c := by
          have := List.getElem?_drop (xs := w) (i := z) (j := 0)
          rw [hcv] at this
          simpa using this.symm
        obtain ⟨hc1, hc2⟩ := hz3 hc c hcz
        have hcd : isdigit c = true := by
          rcases h.1 c (List.mem_of_getElem? hcz) with h2 | h2
          · exact h2
          · exact absurd h2 hc2
        have hcn := isdigit_iff.mp hcd
        have hc48 : c.toNat ≠ 48 := fun hx => hc1 (BitVec.eq_of_toNat_eq (by rw [hx]; rfl))
        rw [hsplit, numVal_append, ← ht, h0, Nat.zero_mul, Nat.zero_add, ← hd, hcv, digs_cons_digit hcd,
          show i - z = (i - z - 1) + 1 by omega, List.take_succ_cons] at h18
        have hx : numVal 10 ((c.toNat - 48) :: (digs v).take (i - z - 1)) = readOn (c.toNat - 48) ((digs v).take (i - z - 1)) := by
          simp [numVal, readOn]
        have hdv : (digs v).length = i - z - 1 + f := by
          have := congrArg List.length hd
          rw [hcv, digs_cons_digit hcd, List.length_cons, List.length_drop] at this
          omega
        rw [hx, readOn_eq, List.length_take, show min (i - z - 1) (digs v).length = i - z - 1 by omega] at h18
        have hge : 1 * 10 ^ (i - z - 1) ≤ (c.toNat - 48) * 10 ^ (i - z - 1) := Nat.mul_le_mul_right _ (by omega)
        have hlt : 10 ^ (i - z - 1) < 10 ^ 18 := by omega
        have := (Nat.pow_lt_pow_iff_right (by norm_num : 1 < 10)).mp hlt
        omega
      constructor
      · rw [hd, show min (i - z) 18 = i - z by omega]
        have : (digs w).take i = (digs w).take z ++ ((digs w).drop z).take (i - z) := by
          rw [← List.take_add, Nat.add_sub_cancel' hz]
        rw [this, numVal_append, ← ht, h0]
        omega
      · rw [← List.drop_drop, hk2, hd, List.drop_drop, show z + min (i - z) 18 = i by omega, show min f 18 = f by omega,
          List.take_of_length_le (by rw [List.length_drop]; omega)]
  · have hzi : z = i := by omega
    subst hzi
    have hdl := digs_drop_length w z
    obtain ⟨k', hk', hk1', hk2'⟩ := scanMantissa_walk (h.drop z) f (by omega)
    refine ⟨0, _, by norm_num, hlt (w.drop z) f, fun t => ?_, fun hp h18 hf18 => ?_⟩
    · unfold magnitude combineParts
      simp only [hz1 t, ok_bind, if_neg hc, pure_eq_ok]
      rw [List.drop_append_of_le_length (by omega), hk1' t]
      simp only [ok_bind, mant_zero]
    · have hd := digs_drop_nodot h z (by omega) (hplain hp)
      have ht := digs_take_nodot h z (by omega) (hplain hp)
      have h0 := digs_zeroes hz2
      refine ⟨by rw [← ht, h0], ?_⟩
      rw [hd, show min f 18 = f by omega, List.take_of_length_le (by rw [List.length_drop]; omega)]

end Tm.Dbl
