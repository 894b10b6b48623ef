import Verif.Uni.Trans

/-! Skipping invalid elements, truncated copies, comparison. -/

namespace Tm.Uni

open Tm.Num Tm.Str

/-! ### Skipping -/

/-- What a valid range function does. -/
def RangeSpec {α : Type} (range : List α → C Nat) (enc : Nat → List α) : Prop := ∀ s, ∃ n, range s = .ok n ∧ LongestWellFormed enc s n

theorem starts_take {α : Type} {enc : Nat → List α} {s : List α} {k : Nat} (h : Starts enc (s.take k)) : Starts enc s := by
  obtain ⟨c, t, hc, he⟩ := h
  exact ⟨c, t ++ s.drop k, hc, by rw [← List.append_assoc, ← he, List.take_append_drop]⟩

theorem lwf_of_not_starts {α : Type} {enc : Nat → List α} {s : List α} {n : Nat} (h : ¬ Starts enc s) (hn : LongestWellFormed enc s n) : n = 0 :=
  lwf_unique hn (lwf_stop h)

theorem not_starts_after {α : Type} {enc : Nat → List α} (hf : Form enc) {s : List α} {n : Nat} (h : LongestWellFormed enc s n) :
    ¬ Starts enc (s.drop n) := by
  rintro ⟨c, t, hc, he⟩
  obtain ⟨h1, ⟨cs, hcs, h2⟩, h3⟩ := h
  have hp := hf.pos c
  have hl := congrArg List.length he
  simp only [List.length_drop, List.length_append] at hl
  have := h3 (n + (enc c).length) (by omega) ⟨cs ++ [c], by
    intro x hx
    rcases List.mem_append.1 hx with hx | hx
    · exact hcs x hx
    · rw [List.mem_singleton.1 hx]; exact hc, by
    rw [encode_append, ← h2, encode_cons, encode_nil, List.append_nil]
    rw [List.take_add, he]
    simp⟩
  omega

theorem memmove_zero {α : Type} (buf : List α) (a b : Nat) (ha : a ≤ buf.length) (hb : b ≤ buf.length) : memmove buf a b 0 = .ok buf := by
  rw [memmove, if_pos (by omega)]; simp

theorem skipLoop_stuck {α : Type} {range : List α → C Nat} {enc : Nat → List α} (hr : RangeSpec range enc) (str : List α) (cur : Nat)
    (hcur : cur ≤ str.length) (hs : ¬ Starts enc (str.drop cur)) :
    ∀ (fuel remaining : Nat), remaining ≤ fuel → remaining ≤ str.length → skipLoop range fuel str cur remaining = .ok (cur, str) := by
  intro fuel
  induction fuel with
  | zero => intro r h1 _; rw [skipLoop, if_pos (by omega)]
  | succ fuel ih =>
    intro r h1 h2
    rw [skipLoop]
    by_cases h0 : r = 0
    · rw [if_pos h0]
    · rw [if_neg h0]
      obtain ⟨n, h3, h4⟩ := hr ((str.drop cur).take r)
      have hn : n = 0 := lwf_of_not_starts (fun h => hs (starts_take h)) h4
      subst hn
      rw [h3, ok_bind]
      have hm : skipMove str cur (str.length - r) 0 = .ok str := by
        rw [skipMove]
        by_cases hc : cur ≠ str.length - r
        · rw [if_pos hc, memmove_zero _ _ _ hcur (by omega)]
        · rw [if_neg hc]
      dsimp only
      rw [hm, ok_bind, if_neg (by omega), assert_ok (b := decide (r ≥ 0 + 1)) (by simp; omega), ok_bind]
      exact ih (r - (0 + 1)) (by omega) (by omega)

theorem skipLoop_spec {α : Type} {range : List α → C Nat} {enc : Nat → List α} (hf : Form enc) (hr : RangeSpec range enc) (str : List α) :
    ∃ n, skipLoop range str.length str 0 str.length = .ok (n, str) ∧ LongestWellFormed enc str n := by
  by_cases h0 : str = []
  · subst h0; exact ⟨0, rfl, lwf_nil enc⟩
  · have hl : str.length ≠ 0 := by simpa using h0
    obtain ⟨n, h1, h2⟩ := hr str
    obtain ⟨f, hfu⟩ : ∃ f, str.length = f + 1 := ⟨str.length - 1, by omega⟩
    refine ⟨n, ?_, h2⟩
    rw [hfu, skipLoop, ← hfu, if_neg hl, List.drop_zero, List.take_length, h1, ok_bind]
    dsimp only
    rw [skipMove, if_neg (by omega), ok_bind]
    by_cases hn : n = str.length
    · rw [if_pos hn, Nat.zero_add]
    · have := h2.1
      rw [if_neg hn, assert_ok (b := decide (str.length ≥ n + 1)) (by simp; omega), ok_bind, Nat.zero_add]
      exact skipLoop_stuck hr str n this (not_starts_after hf h2) f _ (by omega) (by omega)

/-! ### Truncated copy -/

theorem utf8_tail (c : Nat) (hc : Scalar c) : ∀ b ∈ (utf8 c).tail, Continuation b := by
  have hmax := scalar_le hc
  intro b hb
  unfold Continuation
  by_cases h1 : c < 0x80
  · rw [utf8_1 h1] at hb; simp at hb
  by_cases h2 : c < 0x800
  · rw [utf8_2 (by omega) h2] at hb
    simp only [List.tail_cons, List.mem_singleton] at hb
    rw [hb, b8 (by omega)]; omega
  by_cases h3 : c < 0x10000
  · rw [utf8_3 (by omega) h3] at hb
    simp only [List.tail_cons, List.mem_cons, List.not_mem_nil, or_false] at hb
    rcases hb with hb | hb <;> rw [hb, b8 (by omega)] <;> omega
  · rw [utf8_4 (by omega)] at hb
    simp only [List.tail_cons, List.mem_cons, List.not_mem_nil, or_false] at hb
    rcases hb with hb | hb | hb <;> rw [hb, b8 (by omega)] <;> omega

/-- The first byte is no continuation byte, and below 0x80 only when it is the only one. -/
theorem utf8_head (c : Nat) (hc : Scalar c) : ∃ a u, utf8 c = a :: u ∧ ¬ Continuation a ∧ (a.toNat < 0x80 → u = []) := by
  have hmax := scalar_le hc
  unfold Continuation
  by_cases h1 : c < 0x80
  · exact ⟨_, _, utf8_1 h1, by rw [b8 (by omega)]; omega, fun _ => rfl⟩
  by_cases h2 : c < 0x800
  · refine ⟨_, _, utf8_2 (by omega) h2, ?_, ?_⟩ <;> rw [b8 (by omega)] <;> omega
  by_cases h3 : c < 0x10000
  · refine ⟨_, _, utf8_3 (by omega) h3, ?_, ?_⟩ <;> rw [b8 (by omega)] <;> omega
  · refine ⟨_, _, utf8_4 (by omega), ?_, ?_⟩ <;> rw [b8 (by omega)] <;> omega

theorem retreat_spec (str : List Byte) (q : Nat) (hq : ∀ b, str[q]? = some b → ¬ Continuation b) :
    ∀ j, q + j < str.length → (∀ i, 1 ≤ i → i ≤ j → ∀ b, str[q + i]? = some b → Continuation b) → retreat str (q + j) = .ok q := by
  intro j
  induction j with
  | zero =>
    intro h _
    cases q with
    | zero => rfl
    | succ q =>
      rw [Nat.add_zero, retreat, rd, List.getElem?_eq_getElem (by omega)]
      dsimp only
      have := hq _ (List.getElem?_eq_getElem (by omega))
      unfold Continuation at this
      rw [ok_bind, if_neg]
      rw [maskC0 _ (lt8 _)]; exact this
  | succ j ih =>
    intro h hc
    rw [← Nat.add_assoc, retreat, rd, List.getElem?_eq_getElem (by omega)]
    dsimp only
    have := hc (j + 1) (by omega) (Nat.le_refl _) _ (List.getElem?_eq_getElem (by omega))
    unfold Continuation at this
    rw [ok_bind, if_pos]
    · exact ih (by omega) (fun i h1 h2 => hc i h1 (by omega))
    · rw [maskC0 _ (lt8 _)]; exact this

/-- The character that contains position `m`. -/
theorem split_at {α : Type} (enc : Nat → List α) : ∀ (cs : List Nat) (m : Nat), m < (encode enc cs).length →
    ∃ pre c post, cs = pre ++ c :: post ∧ (encode enc pre).length ≤ m ∧ m < (encode enc pre).length + (enc c).length := by
  intro cs
  induction cs with
  | nil => intro m h; simp [encode] at h
  | cons c cs ih =>
    intro m h
    by_cases hm : m < (enc c).length
    · exact ⟨[], c, cs, rfl, by simp [encode], by simpa [encode] using hm⟩
    · rw [encode_cons, List.length_append] at h
      obtain ⟨pre, d, post, rfl, h1, h2⟩ := ih (m - (enc c).length) (by omega)
      refine ⟨c :: pre, d, post, rfl, ?_, ?_⟩ <;> rw [encode_cons, List.length_append] <;> omega

theorem lwf_encode {α : Type} {enc : Nat → List α} (hf : Form enc) {cs : List Nat} (hcs : Scalars cs) {t : List α} {n : Nat}
    (h : LongestWellFormed enc t n) : LongestWellFormed enc (encode enc cs ++ t) ((encode enc cs).length + n) := by
  induction cs with
  | nil => simpa [encode] using h
  | cons c cs ih =>
    obtain ⟨h1, h2⟩ := scalars_cons.1 hcs
    have := lwf_cons hf h1 (ih h2)
    rw [encode_cons, List.append_assoc, List.length_append, Nat.add_assoc]
    exact this

theorem lwf_self {α : Type} {enc : Nat → List α} {s : List α} (h : WellFormed enc s) : LongestWellFormed enc s s.length :=
  ⟨Nat.le_refl _, by rwa [List.take_length], fun _ hm _ => hm⟩

/-- A part of a character is not well-formed unless it is the character or empty. -/
theorem lwf_part {α : Type} {enc : Nat → List α} (hf : Form enc) {c : Nat} (hc : Scalar c) {t : List α} {k n : Nat} (hk : k ≤ (enc c).length)
    (h : LongestWellFormed enc ((enc c ++ t).take k) n) : n = 0 ∨ n = k := by
  obtain ⟨h1, ⟨cs, hcs, h2⟩, h3⟩ := h
  have hlen : ((enc c ++ t).take k).length = k := by rw [List.length_take, List.length_append]; omega
  cases cs with
  | nil =>
    left
    have := congrArg List.length h2
    rw [List.length_take, hlen, encode_nil, List.length_nil] at this
    omega
  | cons d ds =>
    right
    rw [encode_cons, List.take_take] at h2
    obtain ⟨hd, _⟩ := scalars_cons.1 hcs
    have hs : enc c ++ t = enc d ++ (encode enc ds ++ (enc c ++ t).drop (min n k)) := by
      rw [← List.append_assoc, ← h2, List.take_append_drop]
    obtain ⟨rfl, _⟩ := hf.uniq hc hd hs
    have := congrArg List.length h2
    rw [List.length_take, List.length_append, List.length_append] at this
    omega

/-- `n` as computed in `copyTruncated`. -/
theorem copyTruncated_eq (str out : List Byte) (cs : List Nat) (hcs : Scalars cs) (he : str = encode utf8 cs) :
    ∃ n, copyTruncated str out = .ok (n, splice out 0 (str.take n)) ∧ LongestWellFormed utf8 (str.take out.length) n := by
  rw [copyTruncated]
  by_cases hl : str.length ≤ out.length
  · refine ⟨str.length, ?_, ?_⟩
    · rw [if_pos hl, copyTo_spec _ _ _ (by omega), ok_bind, List.take_length]
    · rw [List.take_of_length_le hl]; exact lwf_self ⟨cs, hcs, he⟩
  rw [if_neg hl]
  by_cases h0 : out.length > 0
  · rw [if_pos h0]
    obtain ⟨pre, c, post, rfl, h1, h2⟩ := split_at utf8 cs (out.length - 1) (by rw [← he]; omega)
    have hpre : Scalars pre := fun x hx => hcs x (by simp [hx])
    have hc : Scalar c := hcs c (by simp)
    have hpost : Scalars post := fun x hx => hcs x (by simp [hx])
    have hstr : str = encode utf8 pre ++ (utf8 c ++ encode utf8 post) := by rw [he, encode_append, encode_cons]
    generalize hq : (encode utf8 pre).length = q at h1 h2
    have hget : ∀ i, i < (utf8 c).length → str[q + i]? = (utf8 c)[i]? := by
      intro i hi
      rw [hstr, List.getElem?_append_right (by omega), hq, show q + i - q = i by omega, List.getElem?_append_left hi]
    have hdrop : str.drop q = utf8 c ++ encode utf8 post := by rw [hstr, ← hq, List.drop_left]
    -- the longest well-formed prefix of the part that fits
    obtain ⟨n', hn1, hn2⟩ := utf8ValidRange_spec ((str.drop q).take (out.length - q))
    have hn3 := hn2
    rw [hdrop] at hn3
    have hn0 := lwf_part form8 hc (by omega) hn3
    have hlwf : LongestWellFormed utf8 (str.take out.length) (q + n') := by
      have := lwf_encode form8 hpre hn2
      rw [hq] at this
      have e : str.take out.length = encode utf8 pre ++ (str.drop q).take (out.length - q) := by
        rw [hdrop]
        conv_lhs => rw [hstr]
        rw [List.take_append, hq, List.take_of_length_le (by omega)]
      rw [e]; exact this
    refine ⟨q + n', ?_, hlwf⟩
    have hle : q + n' ≤ out.length := by have := hlwf.1; rw [List.length_take] at this; omega
    have hcopy : copyTo out 0 (str.take (q + n')) = .ok (splice out 0 (str.take (q + n'))) :=
      copyTo_spec _ _ _ (by rw [List.length_take]; omega)
    obtain ⟨a, u, hau, hna, hone⟩ := utf8_head c hc
    have hx : ∃ x, str[out.length - 1]? = some x := ⟨_, List.getElem?_eq_getElem (by omega)⟩
    obtain ⟨x, hx⟩ := hx
    have hxc : (utf8 c)[out.length - 1 - q]? = some x := by
      rw [← hget _ (by omega), show q + (out.length - 1 - q) = out.length - 1 by omega]; exact hx
    rw [rd, hx]
    dsimp only
    rw [ok_bind]
    by_cases hx8 : x.toNat ≥ 0x80
    · rw [if_pos hx8]
      have hret : retreat str (out.length - 1) = .ok q := by
        have := retreat_spec str q (by
          intro b hb
          have := hget 0 (utf8_pos c)
          rw [Nat.add_zero, hb, hau] at this
          injection this with this
          rw [this]; exact hna) (out.length - 1 - q) (by omega) (by
          intro i h3 h4 b hb
          rw [hget i (by omega)] at hb
          refine utf8_tail c hc b ?_
          obtain ⟨i, rfl⟩ : ∃ k, i = k + 1 := ⟨i - 1, by omega⟩
          rw [hau, List.getElem?_cons_succ] at hb
          rw [hau, List.tail_cons]
          exact List.mem_of_getElem? hb)
        rwa [show q + (out.length - 1 - q) = out.length - 1 by omega] at this
      rw [hret, ok_bind]
      rw [hn1, ok_bind, ok_bind]
      have e : (if n' ≠ out.length - q then q else out.length) = q + n' := by
        rcases hn0 with h | h
        · rw [if_pos (by omega)]; omega
        · rw [if_neg (by omega)]; omega
      rw [e, hcopy]; rfl
    · rw [if_neg hx8, ok_bind]
      -- a single byte character
      have hj : out.length - 1 - q = 0 := by
        rcases Nat.eq_zero_or_pos (out.length - 1 - q) with h | h
        · exact h
        · exfalso
          have hm : x ∈ (utf8 c).tail := by
            obtain ⟨i, hi⟩ : ∃ k, out.length - 1 - q = k + 1 := ⟨out.length - 1 - q - 1, by omega⟩
            rw [hi, hau, List.getElem?_cons_succ] at hxc
            rw [hau, List.tail_cons]
            exact List.mem_of_getElem? hxc
          have := utf8_tail c hc x hm
          unfold Continuation at this; omega
      rw [hj, hau] at hxc
      injection hxc with hxc
      have hu := hone (by rw [hxc]; omega)
      have hc1 : (utf8 c).length = 1 := by rw [hau, hu]; rfl
      have hfull : n' = out.length - q := by
        have h1 : out.length - q = (utf8 c).length := by omega
        have := hn2.2.2 (out.length - q) (by rw [List.length_take, hdrop, List.length_append]; omega)
          ⟨[c], by simpa [Scalars] using hc, by
            rw [List.take_take, hdrop, Nat.min_self, h1, List.take_left]; simp [encode]⟩
        have := hn2.1
        rw [List.length_take] at this
        omega
      rw [show out.length = q + n' by omega, hcopy]; rfl
  · refine ⟨0, ?_, ?_⟩
    · rw [if_neg h0, List.take_zero, splice_nil, show out.length = 0 by omega]
    · rw [show out.length = 0 by omega, List.take_zero]; exact lwf_nil utf8

/-! ### Comparison -/

theorem memcmp_prefix (p : List Byte) : ∀ (a b : List Byte) (n : Nat), memcmp (p ++ a) (p ++ b) (p.length + n) = memcmp a b n := by
  induction p with
  | nil => intro a b n; simp
  | cons x p ih =>
    intro a b n
    rw [List.length_cons, show p.length + 1 + n = (p.length + n) + 1 by omega]
    show memcmp (x :: (p ++ a)) (x :: (p ++ b)) _ = _
    rw [memcmp, if_neg (by simp)]
    exact ih a b n

/-- The encodings of different characters differ at the same position in the same direction. -/
theorem utf8_lt {c d : Nat} (hc : Scalar c) (hd : Scalar d) (h : c < d) :
    ∃ p x y u v, utf8 c = p ++ x :: u ∧ utf8 d = p ++ y :: v ∧ x.toNat < y.toNat := by
  have hm1 := scalar_le hc
  have hm2 := scalar_le hd
  by_cases h1 : c < 0x80
  · rw [utf8_1 h1]
    obtain ⟨y, v, hy⟩ : ∃ y v, utf8 d = y :: v := by
      match hd : utf8 d with
      | [] => have := utf8_pos d; rw [hd] at this; simp at this
      | y :: v => exact ⟨y, v, rfl⟩
    refine ⟨[], _, y, [], v, rfl, hy, ?_⟩
    rw [b8 (by omega)]
    by_cases h1 : d < 0x80
    · rw [utf8_1 h1] at hy; injection hy with hy _; rw [← hy, b8 (by omega)]; exact h
    by_cases h2 : d < 0x800
    · rw [utf8_2 (by omega) h2] at hy; injection hy with hy _; rw [← hy, b8 (by omega)]; omega
    by_cases h3 : d < 0x10000
    · rw [utf8_3 (by omega) h3] at hy; injection hy with hy _; rw [← hy, b8 (by omega)]; omega
    · rw [utf8_4 (by omega)] at hy; injection hy with hy _; rw [← hy, b8 (by omega)]; omega
  by_cases h2 : c < 0x800
  · rw [utf8_2 (by omega) h2]
    by_cases h2' : d < 0x800
    · rw [utf8_2 (by omega) h2']
      by_cases e1 : c / 64 = d / 64
      · refine ⟨[BitVec.ofNat 8 (0xC0 + c / 64)], _, _, [], [], rfl, by rw [e1]; rfl, ?_⟩
        rw [b8 (by omega), b8 (by omega)]; omega
      · refine ⟨[], _, _, _, _, rfl, rfl, ?_⟩
        rw [b8 (by omega), b8 (by omega)]; omega
    by_cases h3 : d < 0x10000
    · rw [utf8_3 (by omega) h3]
      refine ⟨[], _, _, _, _, rfl, rfl, ?_⟩
      rw [b8 (by omega), b8 (by omega)]; omega
    · rw [utf8_4 (by omega)]
      refine ⟨[], _, _, _, _, rfl, rfl, ?_⟩
      rw [b8 (by omega), b8 (by omega)]; omega
  by_cases h3 : c < 0x10000
  · rw [utf8_3 (by omega) h3]
    by_cases h3' : d < 0x10000
    · rw [utf8_3 (by omega) h3']
      by_cases e1 : c / 4096 = d / 4096
      · by_cases e2 : c / 64 % 64 = d / 64 % 64
        · refine ⟨[BitVec.ofNat 8 (0xE0 + c / 4096), BitVec.ofNat 8 (0x80 + c / 64 % 64)], _, _, [], [], rfl, by rw [e1, e2]; rfl, ?_⟩
          rw [b8 (by omega), b8 (by omega)]; omega
        · refine ⟨[BitVec.ofNat 8 (0xE0 + c / 4096)], _, _, _, _, rfl, by rw [e1]; rfl, ?_⟩
          rw [b8 (by omega), b8 (by omega)]; omega
      · refine ⟨[], _, _, _, _, rfl, rfl, ?_⟩
        rw [b8 (by omega), b8 (by omega)]; omega
    · rw [utf8_4 (by omega)]
      refine ⟨[], _, _, _, _, rfl, rfl, ?_⟩
      rw [b8 (by omega), b8 (by omega)]; omega
  · rw [utf8_4 (by omega), utf8_4 (by omega)]
    by_cases e1 : c / 262144 = d / 262144
    · by_cases e2 : c / 4096 % 64 = d / 4096 % 64
      · by_cases e3 : c / 64 % 64 = d / 64 % 64
        · refine ⟨[BitVec.ofNat 8 (0xF0 + c / 262144), BitVec.ofNat 8 (0x80 + c / 4096 % 64), BitVec.ofNat 8 (0x80 + c / 64 % 64)], _, _, [], [],
            rfl, by rw [e1, e2, e3]; rfl, ?_⟩
          rw [b8 (by omega), b8 (by omega)]; omega
        · refine ⟨[BitVec.ofNat 8 (0xF0 + c / 262144), BitVec.ofNat 8 (0x80 + c / 4096 % 64)], _, _, _, _,
            rfl, by rw [e1, e2]; rfl, ?_⟩
          rw [b8 (by omega), b8 (by omega)]; omega
      · refine ⟨[BitVec.ofNat 8 (0xF0 + c / 262144)], _, _, _, _, rfl, by rw [e1]; rfl, ?_⟩
        rw [b8 (by omega), b8 (by omega)]; omega
    · refine ⟨[], _, _, _, _, rfl, rfl, ?_⟩
      rw [b8 (by omega), b8 (by omega)]; omega

/-- `d` says how the texts compare. -/
def Orders (d : Int) (cs ds : List Nat) : Prop := (d < 0 ∧ cs < ds) ∨ (d = 0 ∧ cs = ds) ∨ (0 < d ∧ ds < cs)

theorem memcmp_diff (p : List Byte) (x y : Byte) (u v : List Byte) (n : Nat) (h : p.length < n) (hxy : x.toNat ≠ y.toNat) :
    memcmp (p ++ x :: u) (p ++ y :: v) n = .ok ((x.toNat : Int) - y.toNat) := by
  obtain ⟨k, rfl⟩ : ∃ k, n = p.length + (k + 1) := ⟨n - p.length - 1, by omega⟩
  rw [memcmp_prefix, memcmp, if_pos (by intro h; exact hxy (by rw [h]))]

/-- Comparing as in lines 4820-4828. -/
theorem compare_order : ∀ (cs ds : List Nat), Scalars cs → Scalars ds →
    ∃ m, memcmp (encode utf8 cs) (encode utf8 ds) (min (encode utf8 cs).length (encode utf8 ds).length) = .ok m ∧
      Orders (if m ≠ 0 then m else compareLen (encode utf8 cs).length (encode utf8 ds).length) cs ds := by
  intro cs
  induction cs with
  | nil =>
    intro ds _ hds
    refine ⟨0, by simp [encode_nil, memcmp], ?_⟩
    cases ds with
    | nil => right; left; simp [encode_nil, compareLen]
    | cons d ds =>
      left
      have := utf8_pos d
      rw [if_neg (by simp), compareLen, encode_nil, encode_cons, List.length_append, List.length_nil, if_neg (by omega), if_pos (by omega)]
      exact ⟨by omega, List.nil_lt_cons d ds⟩
  | cons c cs ih =>
    intro ds hcs hds
    obtain ⟨hc, hcs'⟩ := scalars_cons.1 hcs
    cases ds with
    | nil =>
      refine ⟨0, by simp [encode_nil, memcmp], ?_⟩
      right; right
      have := utf8_pos c
      rw [if_neg (by simp), compareLen, encode_nil, encode_cons, List.length_append, List.length_nil, if_pos (by omega)]
      exact ⟨by omega, List.nil_lt_cons c cs⟩
    | cons d ds =>
      obtain ⟨hd, hds'⟩ := scalars_cons.1 hds
      rw [encode_cons, encode_cons]
      rcases Nat.lt_trichotomy c d with h | rfl | h
      · obtain ⟨p, x, y, u, v, e1, e2, hxy⟩ := utf8_lt hc hd h
        refine ⟨(x.toNat : Int) - y.toNat, ?_, Or.inl ?_⟩
        · rw [e1, e2, List.append_assoc, List.append_assoc]
          exact memcmp_diff p x y _ _ _ (by simp) (by omega)
        · rw [if_pos (by omega)]
          exact ⟨by omega, List.cons_lt_cons_iff.2 (Or.inl h)⟩
      · obtain ⟨m, h1, h2⟩ := ih ds hcs' hds'
        refine ⟨m, ?_, ?_⟩
        · rw [List.length_append, List.length_append,
            show min ((utf8 c).length + (encode utf8 cs).length) ((utf8 c).length + (encode utf8 ds).length)
              = (utf8 c).length + min (encode utf8 cs).length (encode utf8 ds).length by omega, memcmp_prefix, h1]
        · have e : compareLen (utf8 c ++ encode utf8 cs).length (utf8 c ++ encode utf8 ds).length
              = compareLen (encode utf8 cs).length (encode utf8 ds).length := by
            simp only [compareLen, List.length_append]
            by_cases h3 : (encode utf8 cs).length > (encode utf8 ds).length
            · rw [if_pos h3, if_pos (by omega)]
            · rw [if_neg h3, if_neg (by omega)]
              by_cases h4 : (encode utf8 cs).length < (encode utf8 ds).length
              · rw [if_pos h4, if_pos (by omega)]
              · rw [if_neg h4, if_neg (by omega)]
          rw [e]
          rcases h2 with ⟨h3, h4⟩ | ⟨h3, rfl⟩ | ⟨h3, h4⟩
          · exact Or.inl ⟨h3, List.cons_lt_cons_iff.2 (Or.inr ⟨rfl, h4⟩)⟩
          · exact Or.inr (Or.inl ⟨h3, rfl⟩)
          · exact Or.inr (Or.inr ⟨h3, List.cons_lt_cons_iff.2 (Or.inr ⟨rfl, h4⟩)⟩)
      · obtain ⟨p, x, y, u, v, e1, e2, hxy⟩ := utf8_lt hd hc h
        refine ⟨(y.toNat : Int) - x.toNat, ?_, Or.inr (Or.inr ?_)⟩
        · rw [e1, e2, List.append_assoc, List.append_assoc]
          exact memcmp_diff p y x _ _ _ (by simp) (by omega)
        · rw [if_pos (by omega)]
          exact ⟨by omega, List.cons_lt_cons_iff.2 (Or.inl h)⟩

theorem memcmp_self : ∀ (a b : List Byte) (n : Nat), a.take n = b.take n → n ≤ a.length → n ≤ b.length → memcmp a b n = .ok 0 := by
  intro a
  induction a with
  | nil => intro b n _ h _; simp at h; subst h; rfl
  | cons x a ih =>
    intro b n he h1 h2
    cases n with
    | zero => rfl
    | succ n =>
      cases b with
      | nil => simp at h2
      | cons y b =>
        rw [List.take_succ_cons, List.take_succ_cons] at he
        injection he with e1 e2
        subst e1
        rw [memcmp, if_neg (by simp)]
        exact ih b n e2 (by simpa using h1) (by simpa using h2)

theorem memcmp_zero : ∀ (n : Nat) (a b : List Byte), n = a.length → n = b.length → ∃ m, memcmp a b n = .ok m ∧ (m = 0 ↔ a = b) := by
  intro n
  induction n with
  | zero =>
    intro a b h1 h2
    rw [List.eq_nil_of_length_eq_zero h1.symm, List.eq_nil_of_length_eq_zero h2.symm]
    exact ⟨0, rfl, by simp⟩
  | succ n ih =>
    intro a b h1 h2
    match a, b, h1, h2 with
    | x :: a, y :: b, h1, h2 =>
      rw [memcmp]
      by_cases hxy : x = y
      · subst hxy
        rw [if_neg (by simp)]
        obtain ⟨m, h3, h4⟩ := ih a b (by simpa using h1) (by simpa using h2)
        exact ⟨m, h3, by rw [h4]; simp⟩
      · rw [if_pos hxy]
        refine ⟨_, rfl, ?_⟩
        have : x.toNat ≠ y.toNat := fun h => hxy (BitVec.eq_of_toNat_eq h)
        constructor
        · intro h; omega
        · intro h; injection h with h _; exact absurd h hxy

end Tm.Uni
