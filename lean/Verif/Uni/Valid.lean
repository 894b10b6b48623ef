import Verif.Uni.Lemmas

/-! The valid range functions. -/

namespace Tm.Uni

open Tm.Num Tm.Str

/-- Decoding is unique: what makes an encoding form an encoding form. -/
structure Form {α : Type} (enc : Nat → List α) : Prop where
  pos : ∀ c, 0 < (enc c).length
  uniq : ∀ {c d : Nat} {t u : List α}, Scalar c → Scalar d → enc c ++ t = enc d ++ u → c = d ∧ t = u

theorem form8 : Form utf8 where
  pos := utf8_pos
  uniq := by
    intro c d t u hc hd h
    have h1 := utf8Extract_utf8 c hc t
    rw [h, utf8Extract_utf8 d hd u] at h1
    injection h1 with h1; injection h1 with h1; injection h1 with h1 h2
    exact ⟨h1.symm, h2.symm⟩

theorem form16 : Form utf16 where
  pos := utf16_pos
  uniq := by
    intro c d t u hc hd h
    have h1 := utf16Extract_utf16 c hc t
    rw [h, utf16Extract_utf16 d hd u] at h1
    injection h1 with h1; injection h1 with h1; injection h1 with h1 h2
    exact ⟨h1.symm, h2.symm⟩

/-- `s` starts with a character. -/
def Starts {α : Type} (enc : Nat → List α) (s : List α) : Prop := ∃ c t, Scalar c ∧ s = enc c ++ t

theorem encode_cons {α : Type} (enc : Nat → List α) (c : Nat) (cs : List Nat) : encode enc (c :: cs) = enc c ++ encode enc cs := by
  simp [encode]

theorem encode_nil {α : Type} (enc : Nat → List α) : encode enc [] = [] := rfl

theorem encode_append {α : Type} (enc : Nat → List α) (cs ds : List Nat) : encode enc (cs ++ ds) = encode enc cs ++ encode enc ds := by
  simp [encode]

theorem scalars_cons {c : Nat} {cs : List Nat} : Scalars (c :: cs) ↔ Scalar c ∧ Scalars cs := by simp [Scalars]

theorem wf_nil {α : Type} (enc : Nat → List α) : WellFormed enc [] := ⟨[], by simp [Scalars], rfl⟩

theorem wf_cons {α : Type} {enc : Nat → List α} {c : Nat} (hc : Scalar c) {t : List α} (h : WellFormed enc t) : WellFormed enc (enc c ++ t) := by
  obtain ⟨cs, h1, rfl⟩ := h
  exact ⟨c :: cs, scalars_cons.2 ⟨hc, h1⟩, (encode_cons _ _ _).symm⟩

theorem lwf_nil {α : Type} (enc : Nat → List α) : LongestWellFormed enc [] 0 :=
  ⟨by simp, by simpa using wf_nil enc, fun m hm _ => by simpa using hm⟩

theorem lwf_cons {α : Type} {enc : Nat → List α} (hf : Form enc) {c : Nat} (hc : Scalar c) {t : List α} {n : Nat}
    (h : LongestWellFormed enc t n) : LongestWellFormed enc (enc c ++ t) ((enc c).length + n) := by
  obtain ⟨h1, h2, h3⟩ := h
  refine ⟨by simpa using h1, ?_, ?_⟩
  · rw [List.take_length_add_append]
    exact wf_cons hc h2
  · rintro m hm ⟨cs, hcs, he⟩
    cases cs with
    | nil =>
      have h0 := congrArg List.length he
      rw [List.length_take, encode_nil, List.length_nil] at h0
      have := hf.pos c
      simp only [List.length_append] at hm h0
      omega
    | cons d ds =>
      rw [encode_cons] at he
      obtain ⟨hd, hds⟩ := scalars_cons.1 hcs
      have hs : enc c ++ t = enc d ++ (encode enc ds ++ (enc c ++ t).drop m) := by
        rw [← List.append_assoc, ← he, List.take_append_drop]
      obtain ⟨rfl, ht⟩ := hf.uniq hc hd hs
      have hml : (enc c).length ≤ m := by
        have h0 := congrArg List.length he
        rw [List.length_take, List.length_append (as := enc c) (bs := encode enc ds)] at h0; omega
      obtain ⟨k, rfl⟩ := Nat.exists_eq_add_of_le hml
      rw [List.take_length_add_append] at he
      have := h3 k (by simpa using hm) ⟨ds, hds, List.append_cancel_left he⟩
      omega

theorem lwf_stop {α : Type} {enc : Nat → List α} {s : List α} (h : ¬ Starts enc s) : LongestWellFormed enc s 0 := by
  refine ⟨by simp, by simpa using wf_nil enc, ?_⟩
  rintro m hm ⟨cs, hcs, he⟩
  cases cs with
  | nil =>
    have h0 := congrArg List.length he
    rw [List.length_take, encode_nil, List.length_nil] at h0; omega
  | cons d ds =>
    rw [encode_cons] at he
    exfalso
    exact h ⟨d, encode enc ds ++ s.drop m, (scalars_cons.1 hcs).1, by rw [← List.append_assoc, ← he, List.take_append_drop]⟩

/-- There is only one longest prefix. -/
theorem lwf_unique {α : Type} {enc : Nat → List α} {s : List α} {m n : Nat} (h : LongestWellFormed enc s m) (h' : LongestWellFormed enc s n) :
    m = n := by
  obtain ⟨h1, h2, h3⟩ := h
  obtain ⟨h4, h5, h6⟩ := h'
  have := h3 n h4 h5
  have := h6 m h1 h2
  omega

/-- What one round of a valid range function does. -/
def StepSpec {α : Type} (step : List α → C (Option Nat)) (enc : Nat → List α) : Prop :=
  ∀ s, s ≠ [] → (step s = .ok none ∧ ¬ Starts enc s) ∨ ∃ c t, Scalar c ∧ s = enc c ++ t ∧ step s = .ok (some (enc c).length)

theorem validLoop_spec {α : Type} {step : List α → C (Option Nat)} {enc : Nat → List α} (hf : Form enc) (hs : StepSpec step enc) :
    ∀ (fuel : Nat) (s : List α) (i : Nat), s.length ≤ fuel → ∃ n, validLoop step fuel s i = .ok (i + n) ∧ LongestWellFormed enc s n := by
  intro fuel
  induction fuel with
  | zero =>
    intro s i h
    have : s = [] := List.eq_nil_of_length_eq_zero (by omega)
    subst this
    exact ⟨0, rfl, lwf_nil enc⟩
  | succ fuel ih =>
    intro s i h
    by_cases h0 : s = []
    · subst h0; exact ⟨0, rfl, lwf_nil enc⟩
    · have hl : s.length ≠ 0 := by simpa using h0
      rcases hs s h0 with ⟨h1, h2⟩ | ⟨c, t, hc, rfl, h1⟩
      · exact ⟨0, by rw [validLoop, if_neg hl, h1, ok_bind]; rfl, lwf_stop h2⟩
      · have hp := hf.pos c
        obtain ⟨n, h3, h4⟩ := ih t (i + (enc c).length) (by simp only [List.length_append] at h; omega)
        refine ⟨(enc c).length + n, ?_, lwf_cons hf hc h4⟩
        rw [validLoop, if_neg hl, h1, ok_bind]
        dsimp only
        rw [if_neg (by simp), List.drop_left, h3, Nat.add_assoc]

/-! ### UTF-8 -/

theorem not_starts8 {s : List Byte} (h : ∀ c t, Scalar c → s ≠ utf8 c ++ t) : ¬ Starts utf8 s := fun ⟨c, t, hc, he⟩ => h c t hc he

theorem len_mismatch {a : Byte} {s : List Byte} {k : Nat}
    (hk : ∀ c, Scalar c → ∀ t, a :: s = utf8 c ++ t → k ≤ (utf8 c).length) (hl : s.length + 1 < k) : ¬ Starts utf8 (a :: s) := by
  rintro ⟨c, t, hc, he⟩
  have h1 := hk c hc t he
  have h2 := congrArg List.length he
  simp only [List.length_cons, List.length_append] at h2
  omega

/-- The lead byte tells the length, and the bytes follow table 3-7. -/
theorem starts8_cases {c : Nat} (hc : Scalar c) {t s : List Byte} {a : Byte} (h : a :: s = utf8 c ++ t) :
    (a.toNat < 0x80) ∨
    (∃ b u, s = b :: u ∧ 0xC2 ≤ a.toNat ∧ a.toNat < 0xE0 ∧ 0x80 ≤ b.toNat ∧ b.toNat < 0xC0) ∨
    (∃ b d u, s = b :: d :: u ∧ 0xE0 ≤ a.toNat ∧ a.toNat < 0xF0 ∧ 0x80 ≤ b.toNat ∧ b.toNat < 0xC0 ∧ 0x80 ≤ d.toNat ∧ d.toNat < 0xC0 ∧
      (a.toNat = 0xE0 → 0xA0 ≤ b.toNat) ∧ (a.toNat = 0xED → b.toNat ≤ 0x9F)) ∨
    (∃ b d e u, s = b :: d :: e :: u ∧ 0xF0 ≤ a.toNat ∧ a.toNat ≤ 0xF4 ∧ 0x80 ≤ b.toNat ∧ b.toNat < 0xC0 ∧ 0x80 ≤ d.toNat ∧ d.toNat < 0xC0 ∧
      0x80 ≤ e.toNat ∧ e.toNat < 0xC0 ∧ (a.toNat = 0xF0 → 0x90 ≤ b.toNat) ∧ (a.toNat = 0xF4 → b.toNat ≤ 0x8F)) := by
  have hmax := scalar_le hc
  by_cases h1 : c < 0x80
  · rw [utf8_1 h1] at h
    left
    rw [List.singleton_append] at h
    injection h with ha _
    rw [ha, b8 (by omega)]; exact h1
  by_cases h2 : c < 0x800
  · rw [utf8_2 (by omega) h2] at h
    right; left
    injection h with ha hs
    refine ⟨_, t, hs, ?_⟩
    rw [ha, b8 (by omega), b8 (by omega)]; omega
  by_cases h3 : c < 0x10000
  · rw [utf8_3 (by omega) h3] at h
    right; right; left
    injection h with ha hs
    refine ⟨_, _, t, hs, ?_⟩
    rw [ha, b8 (by omega), b8 (by omega), b8 (by omega)]
    unfold Scalar at hc; omega
  · rw [utf8_4 (by omega)] at h
    right; right; right
    injection h with ha hs
    refine ⟨_, _, _, t, hs, ?_⟩
    rw [ha, b8 (by omega), b8 (by omega), b8 (by omega), b8 (by omega)]; omega

theorem validStep_1 (a : Byte) (s : List Byte) (h : a.toNat < 0x80) : validStep (a :: s) = .ok (some 1) := by
  rw [validStep]; simp only [rd, List.getElem?_cons_zero, ok_bind]; rw [if_pos h]

theorem validStep_2 (a b : Byte) (s : List Byte) (h : 0xC0 ≤ a.toNat ∧ a.toNat < 0xE0) :
    validStep (a :: b :: s) = .ok (if 0xC2 ≤ a.toNat ∧ 0x80 ≤ b.toNat ∧ b.toNat < 0xC0 then some 2 else none) := by
  rw [validStep]
  simp only [rd, List.getElem?_cons_zero, List.getElem?_cons_succ, ok_bind, maskE0 _ (lt8 _), maskFE _ (lt8 _), ne_eq, maskC0 _ (lt8 _)]
  rw [if_neg (by omega), if_pos h, if_neg (by simp)]
  by_cases h1 : 0x80 ≤ b.toNat ∧ b.toNat < 0xC0
  · rw [if_neg (by omega)]
    by_cases h2 : 0xC2 ≤ a.toNat
    · rw [if_neg (by omega), if_pos (by omega)]
    · rw [if_pos (by omega), if_neg (by omega)]
  · rw [if_pos (by omega), if_neg (by omega)]

theorem validStep_3 (a b d : Byte) (s : List Byte) (h : 0xE0 ≤ a.toNat ∧ a.toNat < 0xF0) :
    validStep (a :: b :: d :: s) = .ok (if (0x80 ≤ b.toNat ∧ b.toNat < 0xC0 ∧ 0x80 ≤ d.toNat ∧ d.toNat < 0xC0 ∧
      (a.toNat = 0xE0 → 0xA0 ≤ b.toNat) ∧ (a.toNat = 0xED → b.toNat ≤ 0x9F)) then some 3 else none) := by
  rw [validStep]
  simp only [rd, List.getElem?_cons_zero, List.getElem?_cons_succ, ok_bind, maskE0 _ (lt8 _), maskE0' _ (lt8 _), maskF0 _ (lt8 _), ne_eq,
    maskC0 _ (lt8 _)]
  rw [if_neg (by omega), if_neg (by omega), if_pos h, if_neg (by simp)]
  by_cases h1 : 0x80 ≤ b.toNat ∧ b.toNat < 0xC0
  · rw [if_neg (by omega)]
    by_cases h2 : 0x80 ≤ d.toNat ∧ d.toNat < 0xC0
    · rw [if_neg (by omega)]
      by_cases h3 : a.toNat = 0xE0 ∧ 0x80 ≤ b.toNat ∧ b.toNat < 0xA0
      · rw [if_pos h3, if_neg (by omega)]
      · rw [if_neg h3]
        by_cases h4 : a.toNat = 0xED ∧ b.toNat > 0x9F
        · rw [if_pos h4, if_neg (by omega)]
        · rw [if_neg h4, if_pos (by omega)]
    · rw [if_pos (by omega), if_neg (by omega)]
  · rw [if_pos (by omega), if_neg (by omega)]

theorem validStep_4 (a b d e : Byte) (s : List Byte) (h : 0xF0 ≤ a.toNat ∧ a.toNat < 0xF8) :
    validStep (a :: b :: d :: e :: s) = .ok (if (a.toNat ≤ 0xF4 ∧ 0x80 ≤ b.toNat ∧ b.toNat < 0xC0 ∧ 0x80 ≤ d.toNat ∧ d.toNat < 0xC0 ∧
      0x80 ≤ e.toNat ∧ e.toNat < 0xC0 ∧ (a.toNat = 0xF0 → 0x90 ≤ b.toNat) ∧ (a.toNat = 0xF4 → b.toNat ≤ 0x8F)) then some 4 else none) := by
  rw [validStep]
  simp only [rd, List.getElem?_cons_zero, List.getElem?_cons_succ, ok_bind, maskE0 _ (lt8 _), maskF8 _ (lt8 _), maskF0 _ (lt8 _), ne_eq,
    maskC0 _ (lt8 _)]
  rw [if_neg (by omega), if_neg (by omega), if_neg (by omega), if_pos h, if_neg (by simp)]
  by_cases h1 : 0x80 ≤ b.toNat ∧ b.toNat < 0xC0
  · rw [if_neg (by omega)]
    by_cases h2 : 0x80 ≤ d.toNat ∧ d.toNat < 0xC0
    · rw [if_neg (by omega)]
      by_cases h2' : 0x80 ≤ e.toNat ∧ e.toNat < 0xC0
      · rw [if_neg (by omega)]
        by_cases h3 : a.toNat = 0xF0 ∧ b.toNat < 0x90
        · rw [if_pos h3, if_neg (by omega)]
        · rw [if_neg h3]
          by_cases h4 : a.toNat = 0xF4 ∧ b.toNat > 0x8F
          · rw [if_pos h4, if_neg (by omega)]
          · rw [if_neg h4]
            by_cases h5 : a.toNat > 0xF4
            · rw [if_pos h5, if_neg (by omega)]
            · rw [if_neg h5, if_pos (by omega)]
      · rw [if_pos (by omega), if_neg (by omega)]
    · rw [if_pos (by omega), if_neg (by omega)]
  · rw [if_pos (by omega), if_neg (by omega)]

theorem step8 : StepSpec validStep utf8 := by
  intro s h0
  match s, h0 with
  | a :: s, _ =>
  by_cases h1 : a.toNat < 0x80
  · right
    refine ⟨a.toNat, s, by unfold Scalar; omega, ?_, ?_⟩ <;> rw [utf8_1 h1]
    · simp
    · exact validStep_1 _ _ h1
  by_cases h2 : 0xC0 ≤ a.toNat ∧ a.toNat < 0xE0
  · match s with
    | [] =>
      left
      constructor
      · rw [validStep]; simp only [rd, List.getElem?_cons_zero, ok_bind, maskE0 _ (lt8 _)]; rw [if_neg h1, if_pos h2, if_pos (by simp)]
      · rintro ⟨c, t, hc, he⟩
        rcases starts8_cases hc he with h | ⟨b, u, hs, _⟩ | ⟨b, d, u, hs, _⟩ | ⟨b, d, e, u, hs, _⟩ <;> first | omega | cases hs
    | b :: s =>
      rw [validStep_2 _ _ _ h2]
      by_cases hv : 0xC2 ≤ a.toNat ∧ 0x80 ≤ b.toNat ∧ b.toNat < 0xC0
      · right
        refine ⟨(a.toNat - 0xC0) * 64 + (b.toNat - 0x80), s, by unfold Scalar; omega, ?_, ?_⟩ <;> rw [utf8_2 (by omega) (by omega)]
        · rw [← eq_b8 (b := a) (by omega), ← eq_b8 (b := b) (by omega)]; rfl
        · rw [if_pos hv]; rfl
      · left
        refine ⟨by rw [if_neg hv], ?_⟩
        rintro ⟨c, t, hc, he⟩
        rcases starts8_cases hc he with h | ⟨b', u, hs, h⟩ | ⟨b', d, u, hs, h⟩ | ⟨b', d, e, u, hs, h⟩ <;> first | omega | (cases hs; omega)
  by_cases h3 : 0xE0 ≤ a.toNat ∧ a.toNat < 0xF0
  · by_cases hl : s.length < 2
    · left
      constructor
      · rw [validStep]; simp only [rd, List.getElem?_cons_zero, ok_bind, maskE0 _ (lt8 _), maskF0 _ (lt8 _)]
        rw [if_neg h1, if_neg h2, if_pos h3, if_pos (by simp; omega)]
      · rintro ⟨c, t, hc, he⟩
        rcases starts8_cases hc he with h | ⟨b, u, hs, _⟩ | ⟨b, d, u, hs, _⟩ | ⟨b, d, e, u, hs, _⟩ <;> first | omega | (subst hs; simp only [List.length_cons] at hl; omega)
    · obtain ⟨b, d, s, rfl⟩ : ∃ b d u, s = b :: d :: u := by
        match s with
        | [] => simp at hl
        | [_] => simp at hl
        | b :: d :: u => exact ⟨b, d, u, rfl⟩
      rw [validStep_3 _ _ _ _ h3]
      by_cases hv : (0x80 ≤ b.toNat ∧ b.toNat < 0xC0 ∧ 0x80 ≤ d.toNat ∧ d.toNat < 0xC0 ∧
          (a.toNat = 0xE0 → 0xA0 ≤ b.toNat) ∧ (a.toNat = 0xED → b.toNat ≤ 0x9F))
      · right
        refine ⟨(a.toNat - 0xE0) * 4096 + (b.toNat - 0x80) * 64 + (d.toNat - 0x80), s, by unfold Scalar; omega, ?_, ?_⟩ <;>
          rw [utf8_3 (by omega) (by omega)]
        · rw [← eq_b8 (b := a) (by omega), ← eq_b8 (b := b) (by omega), ← eq_b8 (b := d) (by omega)]; rfl
        · rw [if_pos hv]; rfl
      · left
        refine ⟨by rw [if_neg hv], ?_⟩
        rintro ⟨c, t, hc, he⟩
        rcases starts8_cases hc he with h | ⟨b', u, hs, h⟩ | ⟨b', d, u, hs, h⟩ | ⟨b', d, e, u, hs, h⟩ <;> first | omega | (cases hs; omega)
  by_cases h4 : 0xF0 ≤ a.toNat ∧ a.toNat < 0xF8
  · by_cases hl : s.length < 3
    · left
      constructor
      · rw [validStep]; simp only [rd, List.getElem?_cons_zero, ok_bind, maskE0 _ (lt8 _), maskF0 _ (lt8 _), maskF8 _ (lt8 _)]
        rw [if_neg h1, if_neg h2, if_neg h3, if_pos h4, if_pos (by simp; omega)]
      · rintro ⟨c, t, hc, he⟩
        rcases starts8_cases hc he with h | ⟨b, u, hs, _⟩ | ⟨b, d, u, hs, _⟩ | ⟨b, d, e, u, hs, _⟩ <;> first | omega | (subst hs; simp only [List.length_cons] at hl; omega)
    · obtain ⟨b, d, e, s, rfl⟩ : ∃ b d e u, s = b :: d :: e :: u := by
        match s with
        | [] => simp at hl
        | [_] => simp at hl
        | [_, _] => simp at hl
        | b :: d :: e :: u => exact ⟨b, d, e, u, rfl⟩
      rw [validStep_4 _ _ _ _ _ h4]
      by_cases hv : (a.toNat ≤ 0xF4 ∧ 0x80 ≤ b.toNat ∧ b.toNat < 0xC0 ∧ 0x80 ≤ d.toNat ∧ d.toNat < 0xC0 ∧
          0x80 ≤ e.toNat ∧ e.toNat < 0xC0 ∧ (a.toNat = 0xF0 → 0x90 ≤ b.toNat) ∧ (a.toNat = 0xF4 → b.toNat ≤ 0x8F))
      · right
        refine ⟨(a.toNat - 0xF0) * 262144 + (b.toNat - 0x80) * 4096 + (d.toNat - 0x80) * 64 + (e.toNat - 0x80), s, by unfold Scalar; omega, ?_, ?_⟩ <;>
          rw [utf8_4 (by omega)]
        · rw [← eq_b8 (b := a) (by omega), ← eq_b8 (b := b) (by omega), ← eq_b8 (b := d) (by omega), ← eq_b8 (b := e) (by omega)]; rfl
        · rw [if_pos hv]; rfl
      · left
        refine ⟨by rw [if_neg hv], ?_⟩
        rintro ⟨c, t, hc, he⟩
        rcases starts8_cases hc he with h | ⟨b', u, hs, h⟩ | ⟨b', d, u, hs, h⟩ | ⟨b', d, e, u, hs, h⟩ <;> first | omega | (cases hs; omega)
  · left
    constructor
    · rw [validStep]; simp only [rd, List.getElem?_cons_zero, ok_bind, maskE0 _ (lt8 _), maskF0 _ (lt8 _), maskF8 _ (lt8 _)]
      rw [if_neg h1, if_neg h2, if_neg h3, if_neg h4]
    · rintro ⟨c, t, hc, he⟩
      rcases starts8_cases hc he with h | ⟨b, u, hs, h⟩ | ⟨b, d, u, hs, h⟩ | ⟨b, d, e, u, hs, h⟩ <;> omega

theorem utf8ValidRange_spec (s : List Byte) : ∃ n, utf8ValidRange s = .ok n ∧ LongestWellFormed utf8 s n := by
  obtain ⟨n, h1, h2⟩ := validLoop_spec form8 step8 s.length s 0 (Nat.le_refl _)
  exact ⟨n, by rw [utf8ValidRange, h1, Nat.zero_add], h2⟩

/-! ### UTF-16 -/

theorem starts16_cases {c : Nat} (hc : Scalar c) {t s : List Unit16} {a : Unit16} (h : a :: s = utf16 c ++ t) :
    (a.toNat < 0xD800 ∨ 0xDFFF < a.toNat) ∨
    (∃ b u, s = b :: u ∧ 0xD800 ≤ a.toNat ∧ a.toNat ≤ 0xDBFF ∧ 0xDC00 ≤ b.toNat ∧ b.toNat ≤ 0xDFFF) := by
  have hmax := scalar_le hc
  by_cases h1 : c < 0x10000
  · rw [utf16_1 h1] at h
    left
    rw [List.singleton_append] at h
    injection h with ha _
    rw [ha, b16 (by omega)]; unfold Scalar at hc; omega
  · rw [utf16_2 (by omega)] at h
    right
    injection h with ha hs
    refine ⟨_, t, hs, ?_⟩
    rw [ha, b16 (by omega), b16 (by omega)]; omega

theorem step16 : StepSpec validStep16 utf16 := by
  intro s h0
  match s, h0 with
  | a :: s, _ =>
  by_cases h1 : a.toNat ≥ 0xD800 ∧ a.toNat ≤ 0xDBFF
  · match s with
    | [] =>
      left
      constructor
      · rw [validStep16]; simp only [rd, List.getElem?_cons_zero, ok_bind]; rw [if_pos h1, if_pos (by simp)]
      · rintro ⟨c, t, hc, he⟩
        rcases starts16_cases hc he with h | ⟨b, u, hs, _⟩ <;> first | omega | cases hs
    | b :: s =>
      have e : validStep16 (a :: b :: s) = .ok (if 0xDC00 ≤ b.toNat ∧ b.toNat ≤ 0xDFFF then some 2 else none) := by
        rw [validStep16]
        simp only [rd, List.getElem?_cons_zero, List.getElem?_cons_succ, ok_bind]
        rw [if_pos h1, if_neg (by simp)]
        by_cases h2 : 0xDC00 ≤ b.toNat ∧ b.toNat ≤ 0xDFFF
        · rw [if_neg (by omega), surr _ _ h1 h2, valid_true (by unfold Scalar; omega), if_neg (by simp), if_pos h2]
        · rw [if_pos (by omega), if_neg h2]
      rw [e]
      by_cases h2 : 0xDC00 ≤ b.toNat ∧ b.toNat ≤ 0xDFFF
      · right
        refine ⟨0x10000 + (a.toNat - 0xD800) * 1024 + (b.toNat - 0xDC00), s, by unfold Scalar; omega, ?_, ?_⟩ <;> rw [utf16_2 (by omega)]
        · rw [← eq_b16 (b := a) (by omega), ← eq_b16 (b := b) (by omega)]; rfl
        · rw [if_pos h2]; rfl
      · left
        refine ⟨by rw [if_neg h2], ?_⟩
        rintro ⟨c, t, hc, he⟩
        rcases starts16_cases hc he with h | ⟨b, u, hs, h⟩ <;> first | omega | (cases hs; omega)
  by_cases h2 : a.toNat ≥ 0xDC00 ∧ a.toNat ≤ 0xDFFF
  · left
    constructor
    · rw [validStep16]; simp only [rd, List.getElem?_cons_zero, ok_bind]; rw [if_neg h1, if_pos h2]
    · rintro ⟨c, t, hc, he⟩
      rcases starts16_cases hc he with h | ⟨b, u, hs, h⟩ <;> omega
  · right
    have := lt16 a
    refine ⟨a.toNat, s, by unfold Scalar; omega, ?_, ?_⟩ <;> rw [utf16_1 (by omega)]
    · simp
    · rw [validStep16]; simp only [rd, List.getElem?_cons_zero, ok_bind]; rw [if_neg h1, if_neg h2]; rfl

theorem utf16ValidRange_spec (s : List Unit16) : ∃ n, utf16ValidRange s = .ok n ∧ LongestWellFormed utf16 s n := by
  obtain ⟨n, h1, h2⟩ := validLoop_spec form16 step16 s.length s 0 (Nat.le_refl _)
  exact ⟨n, by rw [utf16ValidRange, h1, Nat.zero_add], h2⟩

end Tm.Uni
