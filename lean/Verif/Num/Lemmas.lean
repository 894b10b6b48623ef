import Verif.Num.Spec
import Mathlib.Data.List.Induction
import Mathlib.Data.List.Forall2
import Mathlib.Tactic.Ring
namespace Tm.Num

theorem numVal_snoc (base : Nat) (ds : List Nat) (d : Nat) : numVal base (ds ++ [d]) = numVal base ds * base + d := by
  simp [numVal]

theorem numVal_foldl (base : Nat) (ds : List Nat) (a : Nat) :
    ds.foldl (fun a d => a * base + d) a = a * base ^ ds.length + numVal base ds := by
  induction ds generalizing a with
  | nil => simp [numVal]
  | cons d ds ih =>
    simp only [numVal, List.foldl_cons, List.length_cons]
    rw [ih, ih]; ring

theorem numVal_append (base : Nat) (a b : List Nat) :
    numVal base (a ++ b) = numVal base a * base ^ b.length + numVal base b := by
  rw [numVal, List.foldl_append, numVal_foldl]; rfl

theorem numVal_lt (base : Nat) (ds : List Nat) (h : ∀ d ∈ ds, d < base) : numVal base ds < base ^ ds.length := by
  induction ds using List.reverseRecOn with
  | nil => simp [numVal]
  | append_singleton ds d ih =>
    have h1 := ih (fun x hx => h x (by simp [hx]))
    have h2 := h d (by simp)
    rw [numVal_snoc, List.length_append, List.length_singleton, Nat.pow_succ]
    calc _ < numVal base ds * base + base := by omega
      _ = (numVal base ds + 1) * base := by ring
      _ ≤ _ := Nat.mul_le_mul_right _ h1

theorem numeral_lt {base n : Nat} (h : n < base) : numeral base n = [n] := by
  rw [numeral]; simp [h]

theorem numeral_ge {base n : Nat} (hb : 2 ≤ base) (h : base ≤ n) :
    numeral base n = numeral base (n / base) ++ [n % base] := by
  rw [numeral]; simp only [show ¬ (base < 2 ∨ n < base) from by omega, dite_false]

theorem numeral_canonical (base n : Nat) (hb : 2 ≤ base) : Canonical base n (numeral base n) := by
  induction n using Nat.strongRecOn with
  | _ n ih =>
    by_cases h : n < base
    · rw [numeral_lt h]
      refine ⟨by simp [numVal], by simpa using h, by simp, by simp⟩
    · have hq : n / base < n := Nat.div_lt_self (by omega) (by omega)
      have hp : 0 < n / base := Nat.div_pos (by omega) (by omega)
      obtain ⟨h1, h2, h3, h4⟩ := ih _ hq
      rw [numeral_ge hb (by omega)]
      refine ⟨?_, ?_, by simp, ?_⟩
      · rw [numVal_snoc, h1, Nat.mul_comm]; exact Nat.div_add_mod n base
      · intro d hd
        rcases List.mem_append.1 hd with hd | hd
        · exact h2 d hd
        · rw [List.mem_singleton.1 hd]; exact Nat.mod_lt _ (by omega)
      · intro hh
        cases hnum : numeral base (n / base) with
        | nil => exact absurd hnum h3
        | cons a as =>
          rw [hnum] at hh h1 h4
          simp at hh; subst hh
          have := h4 rfl
          rw [this] at h1
          simp [numVal] at h1; omega

theorem numVal_numeral (base n : Nat) (hb : 2 ≤ base) : numVal base (numeral base n) = n :=
  (numeral_canonical base n hb).1

theorem canonical_unique {base n : Nat} (hb : 2 ≤ base) {ds : List Nat} (h : Canonical base n ds) : ds = numeral base n := by
  induction ds using List.reverseRecOn generalizing n with
  | nil => exact absurd rfl h.2.2.1
  | append_singleton ds d ih =>
    obtain ⟨h1, h2, h3, h4⟩ := h
    have hd := h2 d (by simp)
    rw [numVal_snoc] at h1
    cases ds with
    | nil =>
      simp [numVal] at h1; subst h1
      rw [numeral_lt hd]; rfl
    | cons a as =>
      have ha : a ≠ 0 := by
        intro h0; subst h0
        have := h4 rfl
        simp at this
      have hpos : 0 < numVal base (a :: as) := by
        rw [show a :: as = [a] ++ as from rfl, numVal_append]
        have : 0 < base ^ as.length := Nat.pow_pos (by omega)
        have h5 : 0 < numVal base [a] := by simp [numVal]; omega
        have := Nat.mul_pos h5 this
        omega
      have hn : base ≤ n := by
        have := Nat.mul_le_mul_right base hpos
        omega
      have hdiv : n / base = numVal base (a :: as) := by
        rw [← h1, Nat.mul_comm, Nat.mul_add_div (by omega), Nat.div_eq_of_lt hd, Nat.add_zero]
      have hmod : n % base = d := by
        rw [← h1, Nat.mul_comm, Nat.mul_add_mod, Nat.mod_eq_of_lt hd]
      rw [numeral_ge hb hn, hmod]
      congr 1
      apply ih
      refine ⟨hdiv.symm, fun x hx => h2 x (List.mem_append_left _ hx), by simp, fun hh => absurd (by simpa using hh) ha⟩

theorem numeral_length_pos (base n : Nat) (hb : 2 ≤ base) : 0 < (numeral base n).length :=
  List.length_pos_iff.2 (numeral_canonical base n hb).2.2.1

/-- The number of digits: `n < base ^ k`. -/
theorem numeral_length_le_iff (base n k : Nat) (hb : 2 ≤ base) (hk : 0 < k) :
    (numeral base n).length ≤ k ↔ n < base ^ k := by
  induction k generalizing n with
  | zero => omega
  | succ k ih =>
    by_cases h : n < base
    · rw [numeral_lt h]
      have : base ^ 1 ≤ base ^ (k + 1) := Nat.pow_le_pow_right (by omega) (by omega)
      simp at this ⊢; omega
    · rw [numeral_ge hb (by omega)]
      rcases Nat.eq_zero_or_pos k with h0 | h0
      · subst h0
        have := numeral_length_pos base (n / base) hb
        simp only [List.length_append, List.length_singleton, Nat.zero_add, Nat.pow_one]; omega
      · have := ih (n / base) h0
        rw [List.length_append, List.length_singleton, Nat.add_le_add_iff_right, this, Nat.div_lt_iff_lt_mul (by omega),
          Nat.pow_succ]

theorem text_length (base : Nat) (lower : Bool) (n : Nat) : (text base lower n).length = (numeral base n).length := by
  simp [text]

/-! ### splice -/

theorem splice_length {α : Type} (buf : List α) (p : Nat) (t : List α) (h : p + t.length ≤ buf.length) :
    (splice buf p t).length = buf.length := by
  simp [splice]; omega

theorem splice_nil {α : Type} (buf : List α) (p : Nat) : splice buf p [] = buf := by simp [splice]

theorem splice_get {α : Type} (buf : List α) (p : Nat) (t : List α) (h : p + t.length ≤ buf.length) (i : Nat) :
    (splice buf p t)[i]? = if p ≤ i ∧ i < p + t.length then t[i - p]? else buf[i]? := by
  have hl : (buf.take p).length = p := by simp; omega
  simp only [splice, List.getElem?_append, List.length_append, hl, List.getElem?_take, List.getElem?_drop]
  split
  · split
    · split
      · omega
      · rfl
    · split
      · rfl
      · omega
  · split
    · omega
    · congr 1; omega

theorem wr_splice {α : Type} (buf : List α) (p : Nat) (t : List α) (v : α) (h : p + 1 + t.length ≤ buf.length) :
    wr (splice buf (p + 1) t) p v = .ok (splice buf p (v :: t)) := by
  have hl := splice_length buf (p + 1) t (by omega)
  have hl2 := splice_length buf p (v :: t) (by simp; omega)
  rw [wr, if_pos (by omega)]
  congr 1
  apply List.ext_getElem?
  intro i
  rw [List.getElem?_set, splice_get _ _ _ (by omega), splice_get _ _ _ (by simp; omega), hl]
  simp only [List.length_cons]
  by_cases h1 : p = i
  · subst h1; simp; omega
  · simp only [h1, if_false]
    by_cases h2 : p + 1 ≤ i ∧ i < p + 1 + t.length
    · rw [if_pos h2, if_pos (by omega)]
      rw [show i - p = (i - (p + 1)) + 1 by omega, List.getElem?_cons_succ]
    · rw [if_neg h2, if_neg (by omega)]

theorem wrI_splice {α : Type} (buf : List α) (p : Nat) {q : Nat} {i : Int} (t : List α) (v : α) (hq : q = p + 1) (hi : i = p)
    (h : p + 1 + t.length ≤ buf.length) :
    wrI (splice buf q t) i v = .ok (splice buf p (v :: t)) := by
  subst hi hq
  rw [wrI, if_pos (by omega), Int.toNat_natCast, wr_splice _ _ _ _ h]

/-- Forward write: extending the spliced text by one cell. -/
theorem wr_splice_snoc {α : Type} (buf : List α) (p : Nat) (t : List α) (v : α) (h : p + t.length + 1 ≤ buf.length) :
    wr (splice buf p t) (p + t.length) v = .ok (splice buf p (t ++ [v])) := by
  have hl := splice_length buf p t (by omega)
  rw [wr, if_pos (by omega)]
  congr 1
  apply List.ext_getElem?
  intro i
  rw [List.getElem?_set, splice_get _ _ _ (by omega), splice_get _ _ _ (by simp; omega), hl]
  simp only [List.length_append, List.length_singleton]
  by_cases h1 : p + t.length = i
  · subst h1; simp; omega
  · simp only [h1, if_false]
    by_cases h2 : p ≤ i ∧ i < p + t.length
    · rw [if_pos h2, if_pos (by omega), List.getElem?_append_left (by omega)]
    · rw [if_neg h2, if_neg (by omega)]

/-! ### digits of a text -/

theorem isDigit_unique {base : Nat} (hb : base ≤ 36) {c : Byte} {d e : Nat} (h1 : IsDigit base c d) (h2 : IsDigit base c e) :
    d = e := by
  obtain ⟨h1, h3⟩ := h1; obtain ⟨h2, h4⟩ := h2
  simp only [upperCode, lowerCode] at h3 h4
  repeat' split at h3
  all_goals repeat' split at h4
  all_goals omega

theorem digitChar_isDigit {base d : Nat} (hb : base ≤ 36) (h : d < base) (lower : Bool) : IsDigit base (digitChar lower d) d := by
  refine ⟨h, ?_⟩
  cases lower
  · left; simp only [digitChar, upperCode, BitVec.toNat_ofNat]; simp only [Bool.false_eq_true, if_false]; split <;> omega
  · right; simp only [digitChar, lowerCode, BitVec.toNat_ofNat]; simp only [if_true]; split <;> omega

end Tm.Num
