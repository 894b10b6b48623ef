import Verif.Str.FindZ
import Verif.Str.Compare

/-! # Lemmas about comparisons and searches that ignore case -/

namespace Tm.Str

theorem toNat_toupper (c : Byte) : (toupper c).toNat = if 97 ≤ c.toNat ∧ c.toNat ≤ 122 then c.toNat - 32 else c.toNat := by
  rw [toupper]
  split
  · rw [BitVec.toNat_sub]
    have := c.isLt
    have h32 : (32 : Byte).toNat = 32 := rfl
    rw [h32]
    omega
  · rfl

theorem toNat_tolower (c : Byte) : (tolower c).toNat = if 65 ≤ c.toNat ∧ c.toNat ≤ 90 then c.toNat + 32 else c.toNat := by
  rw [tolower]
  split
  · rw [BitVec.toNat_add]
    have := c.isLt
    have h32 : (32 : Byte).toNat = 32 := rfl
    rw [h32]
    omega
  · rfl

theorem byte_eq_iff {x y : Byte} : x = y ↔ x.toNat = y.toNat :=
  ⟨fun h => by rw [h], BitVec.eq_of_toNat_eq⟩

theorem toupper_eq_iff (x y : Byte) : toupper x = toupper y ↔ SameLetter x y := by
  rw [byte_eq_iff, toNat_toupper, toNat_toupper, SameLetter, byte_eq_iff]
  split <;> split <;> omega

theorem upper_eq_lower {c : Byte} (h : toupper c = tolower c) (x : Byte) : x = c ↔ SameLetter x c := by
  rw [byte_eq_iff, toNat_toupper, toNat_tolower] at h
  rw [SameLetter, byte_eq_iff]
  split at h <;> split at h <;> omega

theorem upper_ne_lower {c : Byte} (h : toupper c ≠ tolower c) (x : Byte) :
    (x = toupper c ∨ x = tolower c) ↔ SameLetter x c := by
  rw [Ne, byte_eq_iff, toNat_toupper, toNat_tolower] at h
  rw [SameLetter, byte_eq_iff, byte_eq_iff, byte_eq_iff, toNat_toupper, toNat_tolower]
  by_cases h1 : 97 ≤ c.toNat ∧ c.toNat ≤ 122 <;> by_cases h2 : 65 ≤ c.toNat ∧ c.toNat ≤ 90 <;>
    [rw [if_pos h1, if_pos h2] at h ⊢; rw [if_pos h1, if_neg h2] at h ⊢; rw [if_neg h1, if_pos h2] at h ⊢;
      rw [if_neg h1, if_neg h2] at h ⊢] <;> omega

theorem byteAt_congr {mem : List Byte} {P Q : Byte → Prop} (h : ∀ x, P x ↔ Q x) : ByteAt mem P = ByteAt mem Q := by
  funext i
  simp only [ByteAt, h]

theorem findCharIgnoreCase_spec {mem s : List Byte} {p : Nat} (hp : ZStr mem p s) (c : Byte) :
    ∃ r, findCharIgnoreCase mem p c = .ok r ∧ IsFirst (ByteAt mem (SameLetter · c)) p (p + s.length) r := by
  rw [findCharIgnoreCase]
  by_cases h : toupper c = tolower c
  · rw [if_pos h, ← byteAt_congr (upper_eq_lower h)]
    exact findChar_spec c hp
  · rw [if_neg h, ← byteAt_congr (upper_ne_lower h)]
    exact findChar2_spec _ _ hp

theorem findCharIgnoreCaseN_spec {mem : List Byte} {a b : Nat} (h : Range mem a b) (c : Byte) :
    ∃ r, findCharIgnoreCaseN mem a b c = .ok r ∧ IsFirst (ByteAt mem (SameLetter · c)) a b r := by
  rw [findCharIgnoreCaseN, assert_ok (by simpa using h.1), ok_bind, distance_ok h.1, ok_bind]
  by_cases he : b - a = 0
  · rw [if_pos he]
    have := h.1
    exact ⟨b, rfl, Or.inr ⟨rfl, by intros; omega⟩⟩
  · rw [if_neg he]
    by_cases hc : toupper c = tolower c
    · rw [if_pos hc, ← byteAt_congr (upper_eq_lower hc)]
      obtain ⟨r, hr, hs⟩ := findCharN_spec h c
      refine ⟨r, ?_, hs⟩
      rw [findCharN, if_neg (by omega), distance_ok h.1, ok_bind] at hr
      exact hr
    · rw [if_neg hc, ← byteAt_congr (upper_ne_lower hc)]
      exact findChar2N_spec h _ _

/-- `n` bytes at `a` and at `b` agree up to case. -/
def SameText (mem : List Byte) (a b n : Nat) : Prop :=
  ∀ k, k < n → ∃ x y, mem[a + k]? = some x ∧ mem[b + k]? = some y ∧ SameLetter x y

theorem compareIgnoreCaseL_spec (mem : List Byte) : ∀ n a b, a + n ≤ mem.length → b + n ≤ mem.length →
    ∃ d, compareIgnoreCaseL mem a b n = .ok d ∧ (d = 0 ↔ SameText mem a b n)
  | 0, a, b, _, _ => ⟨0, rfl, by simp [SameText]⟩
  | n + 1, a, b, ha, hb => by
    rw [compareIgnoreCaseL, rd_ok (by omega), ok_bind, rd_ok (by omega), ok_bind]
    have h0 : SameText mem a b (n + 1) ↔ (toupper (mem[a]'(by omega)) = toupper (mem[b]'(by omega)) ∧ SameText mem (a + 1) (b + 1) n) := by
      rw [toupper_eq_iff]
      constructor
      · intro h
        constructor
        · obtain ⟨x, y, hx, hy, hxy⟩ := h 0 (by omega)
          rw [Nat.add_zero, List.getElem?_eq_getElem (by omega), Option.some_inj] at hx hy
          rw [hx, hy]; exact hxy
        · intro k hk
          obtain ⟨x, y, hx, hy, hxy⟩ := h (k + 1) (by omega)
          refine ⟨x, y, ?_, ?_, hxy⟩
          · rw [← hx]; congr 1; omega
          · rw [← hy]; congr 1; omega
      · rintro ⟨h1, h2⟩ k hk
        rcases k with _ | k
        · exact ⟨mem[a], mem[b], by simp, by simp, h1⟩
        · obtain ⟨x, y, hx, hy, hxy⟩ := h2 k (by omega)
          refine ⟨x, y, ?_, ?_, hxy⟩
          · rw [← hx]; congr 1; omega
          · rw [← hy]; congr 1; omega
    by_cases hx : toupper (mem[a]'(by omega)) = toupper (mem[b]'(by omega))
    · obtain ⟨d, hd, hd'⟩ := compareIgnoreCaseL_spec mem n (a + 1) (b + 1) (by omega) (by omega)
      refine ⟨d, ?_, ?_⟩
      · rw [← hd]
        show (if _ then _ else _) = _
        rw [hx, if_neg (by simp)]
      · rw [h0, hd']; simp [hx]
    · refine ⟨_, if_pos (byte_ne_of hx), ?_⟩
      rw [h0]
      simp [byte_ne_of hx, hx]

theorem compareIgnoreCaseN_zero {mem : List Byte} {a b n : Nat} (ha : a + n ≤ mem.length) (hb : b + n ≤ mem.length) :
    ∃ d, compareIgnoreCaseN mem a (a + n) b (b + n) = .ok d ∧ (d = 0 ↔ SameText mem a b n) := by
  rw [compareIgnoreCaseN, assert_ok (by simp), ok_bind, assert_ok (by simp), ok_bind, distance_ok (by omega), ok_bind,
    distance_ok (by omega), ok_bind, show a + n - a = n by omega, show b + n - b = n by omega]
  by_cases hn : n = 0
  · rw [if_pos (Or.inl hn)]
    subst hn
    exact ⟨0, rfl, by simp [SameText]⟩
  · rw [if_neg (by omega)]
    have hcl : compareLen n n = 0 := by simp [compareLen]
    by_cases hab : a = b
    · rw [if_pos hab, hcl]
      refine ⟨0, rfl, by simp only [true_iff]; intro k hk; subst hab
                         exact ⟨mem[a + k]'(by omega), mem[a + k]'(by omega), by simp, by simp, Or.inl rfl⟩⟩
    · rw [if_neg hab, if_neg (by omega)]
      obtain ⟨d, hd, hd'⟩ := compareIgnoreCaseL_spec mem n a b ha hb
      rw [hd, ok_bind, hcl]
      by_cases h0 : d = 0
      · rw [if_neg (by simpa using h0)]
        exact ⟨0, rfl, by simp [← hd', h0]⟩
      · rw [if_pos h0]
        exact ⟨d, rfl, hd'⟩

theorem occursIgnoreCase_iff {mem : List Byte} {hi f fl i : Nat} (hf : f < fl) (hfl : fl ≤ mem.length) (hhi : hi ≤ mem.length)
    (hi' : i + (fl - f) ≤ hi) :
    OccursIgnoreCase mem hi (slice mem f fl) i ↔
      (ByteAt mem (SameLetter · mem[f]) i ∧ SameText mem (i + 1) (f + 1) (fl - f - 1)) := by
  have hg : ∀ k (h : k < (slice mem f fl).length), (slice mem f fl)[k] = mem[f + k]'(by rw [length_slice hfl] at h; omega) := by
    intro k h
    have h' := h
    rw [length_slice hfl] at h'
    have := getElem?_slice (mem := mem) (a := f) (b := fl) (i := k)
    rw [if_pos h', List.getElem?_eq_getElem h, List.getElem?_eq_getElem (by omega), Option.some_inj] at this
    exact this
  have hlen := length_slice (mem := mem) (a := f) hfl
  rw [OccursIgnoreCase]
  constructor
  · rintro ⟨-, h⟩
    constructor
    · obtain ⟨x, hx, hs⟩ := h 0 (by omega)
      rw [hg] at hs
      exact ⟨x, hx, hs⟩
    · intro k hk
      obtain ⟨x, hx, hs⟩ := h (k + 1) (by omega)
      rw [hg] at hs
      refine ⟨x, mem[f + (k + 1)]'(by omega), ?_, ?_, hs⟩
      · rw [← hx]; congr 1; omega
      · rw [show f + 1 + k = f + (k + 1) by omega]; simp
  · rintro ⟨⟨x, hx, hs⟩, h⟩
    refine ⟨by omega, fun k hk => ?_⟩
    rw [hg]
    rcases k with _ | k
    · exact ⟨x, hx, hs⟩
    · obtain ⟨x, y, hx, hy, hs⟩ := h k (by omega)
      rw [show f + 1 + k = f + (k + 1) by omega, List.getElem?_eq_getElem (by omega), Option.some_inj] at hy
      refine ⟨x, ?_, by rw [hy]; exact hs⟩
      rw [← hx]; congr 1; omega

theorem findIgnoreCaseNLoop_spec {mem : List Byte} {last f fl : Nat} (hf : f < fl) (hfl : fl ≤ mem.length)
    (hl : last ≤ mem.length) (hlen : fl - f ≤ last) : ∀ fuel cur, cur ≤ last - (fl - f - 1) →
    last - (fl - f - 1) - cur < fuel →
    ∃ r, findIgnoreCaseNLoop mem last (last - (fl - f - 1)) (f + 1) fl (fl - f - 1) mem[f] fuel cur = .ok r ∧
      IsFirst (OccursIgnoreCase mem last (slice mem f fl)) cur last r
  | 0, _, _, h => by omega
  | fuel + 1, cur, hc, hfu => by
    rw [findIgnoreCaseNLoop]
    obtain ⟨r, hr, hs⟩ := findCharIgnoreCaseN_spec (mem := mem) (a := cur) (b := last - (fl - f - 1)) ⟨hc, by omega⟩ mem[f]
    rw [hr, ok_bind]
    have nope : ∀ i, last - (fl - f - 1) ≤ i → ¬ OccursIgnoreCase mem last (slice mem f fl) i := by
      intro i hi ho
      have := ho.1
      rw [length_slice hfl] at this
      omega
    rcases hs with ⟨h1, h2, h3, h4⟩ | ⟨rfl, hs⟩
    · rw [if_neg (by omega)]
      obtain ⟨k, hk, hk0⟩ := compareIgnoreCaseN_zero (mem := mem) (n := fl - f - 1) (a := r + 1) (b := f + 1)
        (by omega) (by omega)
      rw [show f + 1 + (fl - f - 1) = fl by omega] at hk
      rw [hk, ok_bind]
      have before : ∀ i, cur ≤ i → i < r → ¬ OccursIgnoreCase mem last (slice mem f fl) i := by
        intro i hi hi' ho
        rw [occursIgnoreCase_iff hf hfl hl (by omega)] at ho
        exact h4 i hi hi' ho.1
      by_cases hz : k = 0
      · rw [if_pos hz]
        refine ⟨r, rfl, Or.inl ⟨h1, by omega, ?_, before⟩⟩
        rw [occursIgnoreCase_iff hf hfl hl (by omega)]
        exact ⟨h3, hk0.1 hz⟩
      · rw [if_neg hz]
        obtain ⟨r', hr', hs'⟩ := findIgnoreCaseNLoop_spec hf hfl hl hlen fuel (r + 1) (by omega) (by omega)
        refine ⟨r', hr', isFirst_skip (by omega) ?_ hs'⟩
        intro i hi hi'
        by_cases he : i = r
        · subst he
          intro ho
          rw [occursIgnoreCase_iff hf hfl hl (by omega)] at ho
          exact hz (hk0.2 ho.2)
        · exact before i hi (by omega)
    · rw [if_pos rfl]
      refine ⟨last, rfl, Or.inr ⟨rfl, fun i hi hi' => ?_⟩⟩
      by_cases he : i < last - (fl - f - 1)
      · intro ho
        rw [occursIgnoreCase_iff hf hfl hl (by omega)] at ho
        exact hs i hi he ho.1
      · exact nope i (by omega)

theorem findIgnoreCaseN_spec {mem : List Byte} {a b f fl : Nat} (h : Range mem a b) (hf : Range mem f fl) :
    ∃ r, findIgnoreCaseN mem a b f fl = .ok r ∧
      (f < fl → IsFirst (OccursIgnoreCase mem b (slice mem f fl)) a b r) ∧ (f = fl → r = a) := by
  obtain ⟨h1, h2⟩ := h
  obtain ⟨h3, h4⟩ := hf
  rw [findIgnoreCaseN, assert_ok (by simpa using h1), ok_bind, assert_ok (by simpa using h3), ok_bind, distance_ok h3,
    ok_bind]
  by_cases he : fl - f = 0
  · rw [if_pos he]
    exact ⟨a, rfl, by intros; omega, fun _ => rfl⟩
  · rw [if_neg he, distance_ok h1, ok_bind]
    by_cases hlen : fl - f > b - a
    · rw [if_pos hlen]
      refine ⟨b, rfl, fun _ => Or.inr ⟨rfl, fun i hi hi' ho => ?_⟩, by intros; omega⟩
      have := ho.1
      rw [length_slice h4] at this
      omega
    · rw [if_neg hlen, rd_ok (by omega), ok_bind]
      obtain ⟨r, hr, hs⟩ := findIgnoreCaseNLoop_spec (mem := mem) (last := b) (f := f) (fl := fl) (by omega) h4 h2
        (by omega) (b - (fl - f - 1) - a + 1) a (by omega) (by omega)
      exact ⟨r, hr, fun _ => hs, by intros; omega⟩

end Tm.Str
