import Verif.Str.FindZ

/-! # Lemmas about the searches that honour escaping -/

namespace Tm.Str

theorem unescapedLoop_spec {mem : List Byte} {first : Nat} {esc : Byte} : ∀ k, first + k ≤ mem.length →
    ∃ n, unescapedLoop mem first esc k = .ok n ∧ n ≤ k ∧
      (escaped mem first esc k = false ↔ (k - n) % 2 = 0)
  | 0, _ => ⟨0, rfl, by omega, by simp [escaped]⟩
  | k + 1, h => by
    rw [unescapedLoop, rd_ok (by omega), ok_bind]
    by_cases hx : mem[first + k]'(by omega) = esc
    · rw [if_pos hx]
      obtain ⟨n, hn, h1, h2⟩ := unescapedLoop_spec (mem := mem) (first := first) (esc := esc) k (by omega)
      refine ⟨n, hn, by omega, ?_⟩
      rw [escaped, List.getElem?_eq_getElem (by omega), hx]
      cases he : escaped mem first esc k
      · simp only [decide_true, Bool.not_false, Bool.and_true]
        have := h2.1 he
        simp; omega
      · simp only [decide_true, Bool.not_true, Bool.and_false]
        have : ¬ (k - n) % 2 = 0 := fun h => by simp [h2.2 h] at he
        simp; omega
    · rw [if_neg hx]
      refine ⟨k + 1, rfl, by omega, ?_⟩
      rw [escaped, List.getElem?_eq_getElem (by omega)]
      simp [hx]

theorem isCharUnescaped_spec {mem : List Byte} {first last : Nat} (esc : Byte) (h : first ≤ last) (hl : last ≤ mem.length) :
    isCharUnescaped mem first last esc = .ok (!escaped mem first esc (last - first)) := by
  obtain ⟨n, hn, h1, h2⟩ := unescapedLoop_spec (mem := mem) (first := first) (esc := esc) (last - first) (by omega)
  rw [isCharUnescaped, hn, ok_bind, show last - (first + n) = last - first - n by omega]
  congr 1
  cases he : escaped mem first esc (last - first)
  · simpa using h2.1 he
  · have : ¬ (last - first - n) % 2 = 0 := fun h => by simp [h2.2 h] at he
    simpa using this

theorem escaped_rebase {mem : List Byte} {lo m : Nat} {esc : Byte} (h : escaped mem lo esc m = false) :
    ∀ k, escaped mem lo esc (m + k) = escaped mem (lo + m) esc k
  | 0 => by simpa [escaped] using h
  | k + 1 => by rw [← Nat.add_assoc, escaped, escaped, escaped_rebase h k, Nat.add_assoc lo m k]

/-- A position is not escaped if the character before it is not the escape character. -/
theorem not_escaped_of {mem : List Byte} {lo k : Nat} {esc : Byte} (h : k ≠ 0 → mem[lo + k - 1]? ≠ some esc) :
    escaped mem lo esc k = false := by
  rcases k with _ | k
  · rfl
  · rw [escaped]
    have := h (by omega)
    rw [show lo + (k + 1) - 1 = lo + k by omega] at this
    simp [this]

theorem byteAt_iff_get? {mem : List Byte} {c : Byte} {i : Nat} : ByteAt mem (· = c) i ↔ mem[i]? = some c := by
  rw [ByteAt]; simp

theorem not_match_of_byte {mem : List Byte} {lo hi : Nat} {set : List Byte} {esc : Byte} {i : Nat}
    (h : ¬ ByteAt mem (· ∈ set) i) : ¬ UnescapedMatch mem lo hi set esc i := fun hm => h hm.1

theorem byteAt_singleton {mem : List Byte} {c : Byte} {i : Nat} : ByteAt mem (· ∈ [c]) i ↔ ByteAt mem (· = c) i := by
  simp [ByteAt]

/-! ## Counted strings -/

theorem findCharUnescapedNLoop1_spec {mem : List Byte} {first last : Nat} {c esc : Byte} (hne : c ≠ esc) (hl : last ≤ mem.length) :
    ∀ fuel str, first ≤ str → str < last → last - str < fuel →
    (∀ i, first ≤ i → i ≤ str → ¬ UnescapedMatch mem first last [c] esc i) →
    ∃ r, findCharUnescapedNLoop1 mem first last c esc fuel str = .ok r ∧
      IsFirst (UnescapedMatch mem first last [c] esc) first last r
  | 0, _, _, _, h, _ => by omega
  | fuel + 1, str, h1, h2, hf, hno => by
    rw [findCharUnescapedNLoop1]
    obtain ⟨r, hr, hs⟩ := findCharN_spec (mem := mem) (a := str + 1) (b := last) ⟨by omega, hl⟩ c
    rw [hr, ok_bind]
    rcases hs with ⟨g1, g2, g3, g4⟩ | ⟨rfl, hs⟩
    · rw [if_neg (by omega), isCharUnescaped_spec esc (by omega) (by omega), ok_bind]
      have before : ∀ i, first ≤ i → i < r → ¬ UnescapedMatch mem first last [c] esc i := by
        intro i hi hi'
        by_cases he : i ≤ str
        · exact hno i hi he
        · exact not_match_of_byte (fun hb => g4 i (by omega) hi' (byteAt_singleton.1 hb))
      cases he : escaped mem first esc (r - first)
      · rw [if_pos (by simp)]
        refine ⟨r, rfl, Or.inl ⟨by omega, by omega, ⟨byteAt_singleton.2 g3, he, ?_⟩, before⟩⟩
        rintro ⟨h, -⟩
        rw [byteAt_iff_get?, h, Option.some_inj] at g3
        exact hne g3.symm
      · rw [if_neg (by simp)]
        refine findCharUnescapedNLoop1_spec hne hl fuel r (by omega) (by omega) (by omega) (fun i hi hi' => ?_)
        by_cases hir : i = r
        · subst hir
          rintro ⟨-, h, -⟩
          rw [he] at h; cases h
        · exact before i hi (by omega)
    · rw [if_pos rfl]
      refine ⟨r, rfl, Or.inr ⟨rfl, fun i hi hi' => ?_⟩⟩
      by_cases he : i ≤ str
      · exact hno i hi he
      · exact not_match_of_byte (fun hb => hs i (by omega) hi' (byteAt_singleton.1 hb))

theorem findCharUnescapedNLoop2_spec {mem : List Byte} {first last : Nat} {c : Byte} (hl : last ≤ mem.length) :
    ∀ fuel str, first ≤ str → str ≤ last → last - str < fuel → escaped mem first c (str - first) = false →
    (∀ i, first ≤ i → i < str → ¬ UnescapedMatch mem first last [c] c i) →
    ∃ r, findCharUnescapedNLoop2 mem last c fuel str = .ok r ∧
      IsFirst (UnescapedMatch mem first last [c] c) first last r
  | 0, _, _, _, h, _, _ => by omega
  | fuel + 1, str, h1, h2, hf, hesc, hno => by
    rw [findCharUnescapedNLoop2]
    obtain ⟨r, hr, hs⟩ := findCharN_spec (mem := mem) (a := str) (b := last) ⟨by omega, hl⟩ c
    rw [hr, ok_bind]
    rcases hs with ⟨g1, g2, g3, g4⟩ | ⟨rfl, hs⟩
    · rw [if_neg (by omega)]
      have before : ∀ i, first ≤ i → i < r → ¬ UnescapedMatch mem first last [c] c i := by
        intro i hi hi'
        by_cases he : i < str
        · exact hno i hi he
        · exact not_match_of_byte (fun hb => g4 i (by omega) hi' (byteAt_singleton.1 hb))
      have her : escaped mem first c (r - first) = false := by
        by_cases he : r = str
        · rw [he]; exact hesc
        · apply not_escaped_of
          intro _ h
          exact g4 (r - 1) (by omega) (by omega) (byteAt_iff_get?.2 (by rw [← h]; congr 1; omega))
      have hx := byteAt_iff_get?.1 g3
      by_cases hlast : r + 1 = last
      · rw [if_neg (by simpa using hlast)]
        refine ⟨r, rfl, Or.inl ⟨by omega, g2, ⟨byteAt_singleton.2 g3, her, by omega⟩, before⟩⟩
      · rw [if_pos hlast, rd_ok (by omega), ok_bind]
        by_cases hy : mem[r + 1]'(by omega) = c
        · rw [if_pos hy]
          have hy' : mem[r + 1]? = some c := by rw [List.getElem?_eq_getElem (by omega), hy]
          have e1 : escaped mem first c (r + 1 - first) = true := by
            rw [show r + 1 - first = (r - first) + 1 by omega, escaped, her,
              show first + (r - first) = r by omega, hx]
            simp
          have e2 : escaped mem first c (r + 2 - first) = false := by
            rw [show r + 2 - first = (r + 1 - first) + 1 by omega, escaped, e1]
            simp
          refine findCharUnescapedNLoop2_spec hl fuel (r + 2) (by omega) (by omega) (by omega) e2 (fun i hi hi' => ?_)
          by_cases hir : i < r
          · exact before i hi hir
          · by_cases hir' : i = r
            · subst hir'
              rintro ⟨-, -, h⟩
              exact h ⟨hx, by omega, hy'⟩
            · obtain rfl : i = r + 1 := by omega
              rintro ⟨-, h, -⟩
              rw [e1] at h; cases h
        · rw [if_neg hy]
          refine ⟨r, rfl, Or.inl ⟨by omega, g2, ⟨byteAt_singleton.2 g3, her, ?_⟩, before⟩⟩
          rintro ⟨-, -, h⟩
          rw [List.getElem?_eq_getElem (by omega), Option.some_inj] at h
          exact hy h
    · rw [if_pos rfl]
      refine ⟨r, rfl, Or.inr ⟨rfl, fun i hi hi' => ?_⟩⟩
      by_cases he : i < str
      · exact hno i hi he
      · exact not_match_of_byte (fun hb => hs i (by omega) hi' (byteAt_singleton.1 hb))

theorem findCharUnescapedN_spec {mem : List Byte} {a b : Nat} (h : Range mem a b) (c esc : Byte) :
    ∃ r, findCharUnescapedN mem a b c esc = .ok r ∧ IsFirst (UnescapedMatch mem a b [c] esc) a b r := by
  obtain ⟨h1, h2⟩ := h
  rw [findCharUnescapedN, assert_ok (by simpa using h1), ok_bind]
  by_cases he : a = b
  · rw [if_pos he]
    subst he
    exact ⟨a, rfl, isFirst_empty _ _⟩
  · rw [if_neg he]
    by_cases hc : c = esc
    · rw [if_neg (by simpa using hc)]
      subst hc
      exact findCharUnescapedNLoop2_spec h2 _ a (by omega) (by omega) (by omega) (by simp [escaped]) (by intros; omega)
    · rw [if_pos hc, rd_ok (by omega), ok_bind]
      by_cases hx : mem[a]'(by omega) = c
      · rw [if_pos hx]
        refine ⟨a, rfl, isFirst_here (by omega) ⟨?_, by simp [escaped], ?_⟩⟩
        · rw [byteAt_singleton, byteAt_iff (by omega)]; exact hx
        · rintro ⟨h, -⟩
          rw [List.getElem?_eq_getElem (by omega), Option.some_inj, hx] at h
          exact hc h
      · rw [if_neg hx]
        apply findCharUnescapedNLoop1_spec hc h2 _ a (by omega) (by omega) (by omega)
        intro i hi hi'
        obtain rfl : i = a := by omega
        apply not_match_of_byte
        rw [byteAt_singleton, byteAt_iff (by omega)]
        exact hx

theorem findFirstOfN_nonempty {mem : List Byte} {a b f fl : Nat} (h : Range mem a b) (hf : Range mem f fl) (hne : f ≠ fl) :
    ∃ r, findFirstOfN mem a b f fl = .ok r ∧ IsFirst (ByteAt mem (· ∈ slice mem f fl)) a b r := by
  obtain ⟨h1, h2⟩ := h
  rw [findFirstOfN, assert_ok (by simpa using h1), ok_bind, assert_ok (by simpa using hf.1), ok_bind, if_neg hne,
    distance_ok hf.1, ok_bind]
  obtain ⟨r, hr, hs⟩ := findFirstOfLoop_spec hf false (b - a) a (by omega)
  refine ⟨r, hr, ?_⟩
  rw [show a + (b - a) = b by omega] at hs
  simpa using hs

theorem findFirstOfUnescapedNLoop_spec {mem : List Byte} {lo last f fl : Nat} {esc : Byte} (hl : last ≤ mem.length)
    (hf : Range mem f fl) (hne : f ≠ fl) :
    ∀ fuel first str, lo ≤ first → first ≤ str → str ≤ last → last - str < fuel → escaped mem lo esc (first - lo) = false →
    (esc ∈ slice mem f fl → ∀ i, first ≤ i → i < str → mem[i]? ≠ some esc) →
    (∀ i, lo ≤ i → i < str → ¬ UnescapedMatch mem lo last (slice mem f fl) esc i) →
    ∃ r, findFirstOfUnescapedNLoop mem last f fl esc fuel first str = .ok r ∧
      IsFirst (UnescapedMatch mem lo last (slice mem f fl) esc) lo last r
  | 0, _, _, _, _, _, h, _, _, _ => by omega
  | fuel + 1, first, str, h0, h1, h2, hfu, hesc, hset, hno => by
    rw [findFirstOfUnescapedNLoop]
    obtain ⟨r, hr, hs⟩ := findFirstOfN_nonempty (mem := mem) (a := str) (b := last) ⟨by omega, hl⟩ hf hne
    rw [hr, ok_bind]
    have hreb : ∀ i, first ≤ i → escaped mem lo esc (i - lo) = escaped mem first esc (i - first) := by
      intro i hi
      have := escaped_rebase hesc (i - first)
      rw [show first - lo + (i - first) = i - lo by omega, show lo + (first - lo) = first by omega] at this
      exact this
    rcases hs with ⟨g1, g2, g3, g4⟩ | ⟨rfl, hs⟩
    · rw [if_neg (by omega), rd_ok (by omega), ok_bind]
      have before : ∀ i, lo ≤ i → i < r → ¬ UnescapedMatch mem lo last (slice mem f fl) esc i := by
        intro i hi hi'
        by_cases he : i < str
        · exact hno i hi he
        · exact not_match_of_byte (g4 i (by omega) hi')
      by_cases hx : mem[r]'(by omega) = esc
      · rw [if_pos hx]
        have hx' : mem[r]? = some esc := by rw [List.getElem?_eq_getElem (by omega), hx]
        have hmem : esc ∈ slice mem f fl := by
          rw [byteAt_iff (by omega), hx] at g3; exact g3
        have her : escaped mem lo esc (r - lo) = false := by
          rw [hreb r (by omega)]
          apply not_escaped_of
          intro hk h
          rw [show first + (r - first) - 1 = r - 1 by omega] at h
          by_cases hlt : r - 1 < str
          · exact hset hmem (r - 1) (by omega) hlt h
          · refine g4 (r - 1) (by omega) (by omega) ⟨esc, h, hmem⟩
        by_cases hlast : r + 1 = last
        · rw [if_neg (by simpa using hlast)]
          exact ⟨r, rfl, Or.inl ⟨by omega, g2, ⟨g3, her, by omega⟩, before⟩⟩
        · rw [if_pos hlast, rd_ok (by omega), ok_bind]
          by_cases hy : mem[r + 1]'(by omega) = esc
          · rw [if_pos hy]
            have hy' : mem[r + 1]? = some esc := by rw [List.getElem?_eq_getElem (by omega), hy]
            have e1 : escaped mem lo esc (r + 1 - lo) = true := by
              rw [show r + 1 - lo = (r - lo) + 1 by omega, escaped, her,
                show lo + (r - lo) = r by omega, hx']
              simp
            have e2 : escaped mem lo esc (r + 2 - lo) = false := by
              rw [show r + 2 - lo = (r + 1 - lo) + 1 by omega, escaped, e1]
              simp
            refine findFirstOfUnescapedNLoop_spec hl hf hne fuel (r + 2) (r + 2) (by omega) (by omega) (by omega)
              (by omega) e2 (by intros; omega) (fun i hi hi' => ?_)
            by_cases hir : i < r
            · exact before i hi hir
            · by_cases hir' : i = r
              · subst hir'
                rintro ⟨-, -, h⟩
                exact h ⟨hx', by omega, hy'⟩
              · obtain rfl : i = r + 1 := by omega
                rintro ⟨-, h, -⟩
                rw [e1] at h; cases h
          · rw [if_neg hy]
            refine ⟨r, rfl, Or.inl ⟨by omega, g2, ⟨g3, her, ?_⟩, before⟩⟩
            rintro ⟨-, -, h⟩
            rw [List.getElem?_eq_getElem (by omega), Option.some_inj] at h
            exact hy h
      · rw [if_neg hx, isCharUnescaped_spec esc (by omega) (by omega), ok_bind, ← hreb r (by omega)]
        have hx' : mem[r]? ≠ some esc := by
          rw [List.getElem?_eq_getElem (by omega), Ne, Option.some_inj]; exact hx
        cases he : escaped mem lo esc (r - lo)
        · rw [if_pos (by simp)]
          exact ⟨r, rfl, Or.inl ⟨by omega, g2, ⟨g3, he, fun h => hx' h.1⟩, before⟩⟩
        · rw [if_neg (by simp)]
          refine findFirstOfUnescapedNLoop_spec hl hf hne fuel first (r + 1) (by omega) (by omega) (by omega)
            (by omega) hesc (fun hm i hi hi' => ?_) (fun i hi hi' => ?_)
          · by_cases hir : i = r
            · subst hir; exact hx'
            · by_cases hlt : i < str
              · exact hset hm i hi hlt
              · exact fun h => g4 i (by omega) (by omega) ⟨esc, h, hm⟩
          · by_cases hir : i = r
            · subst hir
              rintro ⟨-, h, -⟩
              rw [he] at h; cases h
            · exact before i hi (by omega)
    · rw [if_pos rfl]
      refine ⟨r, rfl, Or.inr ⟨rfl, fun i hi hi' => ?_⟩⟩
      by_cases he : i < str
      · exact hno i hi he
      · exact not_match_of_byte (hs i (by omega) hi')

theorem findFirstOfUnescapedN_spec {mem : List Byte} {a b f fl : Nat} (h : Range mem a b) (hf : Range mem f fl)
    (hne : f ≠ fl) (esc : Byte) :
    ∃ r, findFirstOfUnescapedN mem a b f fl esc = .ok r ∧
      IsFirst (UnescapedMatch mem a b (slice mem f fl) esc) a b r := by
  obtain ⟨h1, h2⟩ := h
  rw [findFirstOfUnescapedN, assert_ok (by simpa using h1), ok_bind, assert_ok (by simpa using hf.1), ok_bind]
  by_cases he : a = b
  · rw [if_pos he]
    subst he
    exact ⟨a, rfl, isFirst_empty _ _⟩
  · rw [if_neg he, if_neg hne]
    exact findFirstOfUnescapedNLoop_spec h2 hf hne _ a a (by omega) (by omega) (by omega) (by omega) (by simp [escaped])
      (by intros; omega) (by intros; omega)

/-! ## NUL-terminated strings -/

theorem ZStr.pos {mem s : List Byte} {p : Nat} (h : ZStr mem p s) {i : Nat} (h1 : p ≤ i) (h2 : i ≤ p + s.length) :
    ∃ s', ZStr mem i s' ∧ i + s'.length = p + s.length := by
  have := h.drop (k := i - p) (by omega)
  rw [show p + (i - p) = i by omega] at this
  exact ⟨_, this, by rw [List.length_drop]; omega⟩

theorem ZStr.get_in {mem s : List Byte} {p : Nat} (h : ZStr mem p s) {i : Nat} (h1 : p ≤ i) (h2 : i < p + s.length) :
    ∃ x, mem[i]? = some x ∧ x ≠ 0 := by
  have := h.get (i := i - p) (by omega)
  rw [show p + (i - p) = i by omega] at this
  exact ⟨_, this, h.ne _⟩

theorem ZStr.get_end {mem s : List Byte} {p i : Nat} (h : ZStr mem p s) (hi : i = p + s.length) : mem[i]? = some 0 := by
  rw [hi]; exact h.nul

theorem findCharUnescapedLoop1_spec {mem s : List Byte} {p : Nat} (hp : ZStr mem p s) {c esc : Byte} (hne : c ≠ esc) :
    ∀ fuel str, p ≤ str → str < p + s.length → p + s.length - str < fuel →
    (∀ i, p ≤ i → i ≤ str → ¬ UnescapedMatch mem p (p + s.length) [c] esc i) →
    ∃ r, findCharUnescapedLoop1 mem p c esc fuel str = .ok r ∧
      IsFirst (UnescapedMatch mem p (p + s.length) [c] esc) p (p + s.length) r
  | 0, _, _, _, h, _ => by omega
  | fuel + 1, str, h1, h2, hf, hno => by
    rw [findCharUnescapedLoop1]
    obtain ⟨s', hp', he'⟩ := hp.pos (i := str + 1) (by omega) (by omega)
    obtain ⟨r, hr, hs⟩ := findChar_spec c hp'
    rw [he'] at hs
    have hl := hp.lt
    rw [hr, ok_bind]
    rcases hs with ⟨g1, g2, g3, g4⟩ | ⟨rfl, hs⟩
    · obtain ⟨x, hx, hx0⟩ := hp.get_in (i := r) (by omega) g2
      rw [rd_of_get? hx, ok_bind, if_neg hx0, isCharUnescaped_spec esc (by omega) (by omega), ok_bind]
      have before : ∀ i, p ≤ i → i < r → ¬ UnescapedMatch mem p (p + s.length) [c] esc i := by
        intro i hi hi'
        by_cases he : i ≤ str
        · exact hno i hi he
        · exact not_match_of_byte (fun hb => g4 i (by omega) hi' (byteAt_singleton.1 hb))
      cases he : escaped mem p esc (r - p)
      · rw [if_pos (by simp)]
        refine ⟨r, rfl, Or.inl ⟨by omega, by omega, ⟨byteAt_singleton.2 g3, he, ?_⟩, before⟩⟩
        rintro ⟨h, -⟩
        rw [byteAt_iff_get?, h, Option.some_inj] at g3
        exact hne g3.symm
      · rw [if_neg (by simp)]
        refine findCharUnescapedLoop1_spec hp hne fuel r (by omega) (by omega) (by omega) (fun i hi hi' => ?_)
        by_cases hir : i = r
        · subst hir
          rintro ⟨-, h, -⟩
          rw [he] at h; cases h
        · exact before i hi (by omega)
    · rw [rd_of_get? hp.nul, ok_bind, if_pos rfl]
      refine ⟨_, rfl, Or.inr ⟨rfl, fun i hi hi' => ?_⟩⟩
      by_cases he : i ≤ str
      · exact hno i hi he
      · exact not_match_of_byte (fun hb => hs i (by omega) hi' (byteAt_singleton.1 hb))

theorem findCharUnescapedLoop2_spec {mem s : List Byte} {p : Nat} (hp : ZStr mem p s) {c : Byte} (hc0 : c ≠ 0) :
    ∀ fuel str, p ≤ str → str ≤ p + s.length → p + s.length - str < fuel → escaped mem p c (str - p) = false →
    (∀ i, p ≤ i → i < str → ¬ UnescapedMatch mem p (p + s.length) [c] c i) →
    ∃ r, findCharUnescapedLoop2 mem c fuel str = .ok r ∧
      IsFirst (UnescapedMatch mem p (p + s.length) [c] c) p (p + s.length) r
  | 0, _, _, _, h, _, _ => by omega
  | fuel + 1, str, h1, h2, hf, hesc, hno => by
    rw [findCharUnescapedLoop2]
    obtain ⟨s', hp', he'⟩ := hp.pos (i := str) (by omega) (by omega)
    obtain ⟨r, hr, hs⟩ := findChar_spec c hp'
    rw [he'] at hs
    have hl := hp.lt
    rw [hr, ok_bind]
    rcases hs with ⟨g1, g2, g3, g4⟩ | ⟨rfl, hs⟩
    · have hx := byteAt_iff_get?.1 g3
      rw [rd_of_get? hx, ok_bind, if_neg hc0]
      have before : ∀ i, p ≤ i → i < r → ¬ UnescapedMatch mem p (p + s.length) [c] c i := by
        intro i hi hi'
        by_cases he : i < str
        · exact hno i hi he
        · exact not_match_of_byte (fun hb => g4 i (by omega) hi' (byteAt_singleton.1 hb))
      have her : escaped mem p c (r - p) = false := by
        by_cases he : r = str
        · rw [he]; exact hesc
        · apply not_escaped_of
          intro _ h
          exact g4 (r - 1) (by omega) (by omega) (byteAt_iff_get?.2 (by rw [← h]; congr 1; omega))
      rw [rd_ok (by omega), ok_bind]
      by_cases hy : mem[r + 1]'(by omega) = c
      · rw [if_pos hy]
        have hy' : mem[r + 1]? = some c := by rw [List.getElem?_eq_getElem (by omega), hy]
        have hlast : r + 1 < p + s.length := by
          by_contra hge
          have := hp.get_end (i := r + 1) (by omega)
          rw [hy', Option.some_inj] at this
          exact hc0 this
        have e1 : escaped mem p c (r + 1 - p) = true := by
          rw [show r + 1 - p = (r - p) + 1 by omega, escaped, her,
            show p + (r - p) = r by omega, hx]
          simp
        have e2 : escaped mem p c (r + 2 - p) = false := by
          rw [show r + 2 - p = (r + 1 - p) + 1 by omega, escaped, e1]
          simp
        refine findCharUnescapedLoop2_spec hp hc0 fuel (r + 2) (by omega) (by omega) (by omega) e2 (fun i hi hi' => ?_)
        by_cases hir : i < r
        · exact before i hi hir
        · by_cases hir' : i = r
          · subst hir'
            rintro ⟨-, -, h⟩
            exact h ⟨hx, hlast, hy'⟩
          · obtain rfl : i = r + 1 := by omega
            rintro ⟨-, h, -⟩
            rw [e1] at h; cases h
      · rw [if_neg hy]
        refine ⟨r, rfl, Or.inl ⟨by omega, g2, ⟨byteAt_singleton.2 g3, her, ?_⟩, before⟩⟩
        rintro ⟨-, -, h⟩
        rw [List.getElem?_eq_getElem (by omega), Option.some_inj] at h
        exact hy h
    · rw [rd_of_get? hp.nul, ok_bind, if_pos rfl]
      refine ⟨_, rfl, Or.inr ⟨rfl, fun i hi hi' => ?_⟩⟩
      by_cases he : i < str
      · exact hno i hi he
      · exact not_match_of_byte (fun hb => hs i (by omega) hi' (byteAt_singleton.1 hb))

theorem findCharUnescaped_spec {mem s : List Byte} {p : Nat} (hp : ZStr mem p s) (hs : s ≠ []) {c : Byte} (hc0 : c ≠ 0)
    (esc : Byte) :
    ∃ r, findCharUnescaped mem p c esc = .ok r ∧
      IsFirst (UnescapedMatch mem p (p + s.length) [c] esc) p (p + s.length) r := by
  have hl := hp.lt
  have hlen : 0 < s.length := List.length_pos_iff.2 hs
  rw [findCharUnescaped]
  by_cases hc : c = esc
  · rw [if_neg (by simpa using hc)]
    subst hc
    exact findCharUnescapedLoop2_spec hp hc0 _ p (by omega) (by omega) (by omega) (by simp [escaped]) (by intros; omega)
  · rw [if_pos hc, rd_ok (by omega), ok_bind]
    by_cases hx : mem[p]'(by omega) = c
    · rw [if_pos hx]
      refine ⟨p, rfl, isFirst_here (by omega) ⟨?_, by simp [escaped], ?_⟩⟩
      · rw [byteAt_singleton, byteAt_iff (by omega)]; exact hx
      · rintro ⟨h, -⟩
        rw [List.getElem?_eq_getElem (by omega), Option.some_inj, hx] at h
        exact hc h
    · rw [if_neg hx]
      apply findCharUnescapedLoop1_spec hp hc _ p (by omega) (by omega) (by omega)
      intro i hi hi'
      obtain rfl : i = p := by omega
      apply not_match_of_byte
      rw [byteAt_singleton, byteAt_iff (by omega)]
      exact hx

theorem findFirstOfUnescapedLoop_spec {mem s set : List Byte} {p q : Nat} {esc : Byte} (hp : ZStr mem p s)
    (hq : ZStr mem q set) :
    ∀ fuel first str, p ≤ first → first ≤ str → str ≤ p + s.length → p + s.length - str < fuel →
    escaped mem p esc (first - p) = false →
    (esc ∈ set → ∀ i, first ≤ i → i < str → mem[i]? ≠ some esc) →
    (∀ i, p ≤ i → i < str → ¬ UnescapedMatch mem p (p + s.length) set esc i) →
    ∃ r, findFirstOfUnescapedLoop mem q esc fuel first str = .ok r ∧
      IsFirst (UnescapedMatch mem p (p + s.length) set esc) p (p + s.length) r
  | 0, _, _, _, _, _, h, _, _, _ => by omega
  | fuel + 1, first, str, h0, h1, h2, hfu, hesc, hset, hno => by
    rw [findFirstOfUnescapedLoop]
    obtain ⟨s', hp', he'⟩ := hp.pos (i := str) (by omega) (by omega)
    obtain ⟨r, hr, hs⟩ := findFirstOf_spec hq hp'
    rw [he'] at hs
    have hl := hp.lt
    rw [hr, ok_bind]
    have hreb : ∀ i, first ≤ i → escaped mem p esc (i - p) = escaped mem first esc (i - first) := by
      intro i hi
      have := escaped_rebase hesc (i - first)
      rw [show first - p + (i - first) = i - p by omega, show p + (first - p) = first by omega] at this
      exact this
    rcases hs with ⟨g1, g2, g3, g4⟩ | ⟨rfl, hs⟩
    · obtain ⟨x, hxr, hx0⟩ := hp.get_in (i := r) (by omega) g2
      rw [rd_of_get? hxr, ok_bind, if_neg hx0]
      have before : ∀ i, p ≤ i → i < r → ¬ UnescapedMatch mem p (p + s.length) set esc i := by
        intro i hi hi'
        by_cases he : i < str
        · exact hno i hi he
        · exact not_match_of_byte (g4 i (by omega) hi')
      by_cases hx : x = esc
      · rw [if_pos hx]
        have hx' : mem[r]? = some esc := by rw [hxr, hx]
        have hmem : esc ∈ set := by
          obtain ⟨y, hy, hy'⟩ := g3
          rw [hx', Option.some_inj] at hy
          rw [hy]; exact hy'
        have her : escaped mem p esc (r - p) = false := by
          rw [hreb r (by omega)]
          apply not_escaped_of
          intro hk h
          rw [show first + (r - first) - 1 = r - 1 by omega] at h
          by_cases hlt : r - 1 < str
          · exact hset hmem (r - 1) (by omega) hlt h
          · refine g4 (r - 1) (by omega) (by omega) ⟨esc, h, hmem⟩
        rw [rd_ok (by omega), ok_bind]
        by_cases hy : mem[r + 1]'(by omega) = esc
        · rw [if_pos hy]
          have hy' : mem[r + 1]? = some esc := by rw [List.getElem?_eq_getElem (by omega), hy]
          have hlast : r + 1 < p + s.length := by
            by_contra hge
            have := hp.get_end (i := r + 1) (by omega)
            rw [hy', Option.some_inj, ← hx] at this
            exact hx0 this
          have e1 : escaped mem p esc (r + 1 - p) = true := by
            rw [show r + 1 - p = (r - p) + 1 by omega, escaped, her,
              show p + (r - p) = r by omega, hx']
            simp
          have e2 : escaped mem p esc (r + 2 - p) = false := by
            rw [show r + 2 - p = (r + 1 - p) + 1 by omega, escaped, e1]
            simp
          refine findFirstOfUnescapedLoop_spec hp hq fuel (r + 2) (r + 2) (by omega) (by omega) (by omega)
            (by omega) e2 (by intros; omega) (fun i hi hi' => ?_)
          by_cases hir : i < r
          · exact before i hi hir
          · by_cases hir' : i = r
            · subst hir'
              rintro ⟨-, -, h⟩
              exact h ⟨hx', by omega, hy'⟩
            · obtain rfl : i = r + 1 := by omega
              rintro ⟨-, h, -⟩
              rw [e1] at h; cases h
        · rw [if_neg hy]
          refine ⟨r, rfl, Or.inl ⟨by omega, g2, ⟨g3, her, ?_⟩, before⟩⟩
          rintro ⟨-, -, h⟩
          rw [List.getElem?_eq_getElem (by omega), Option.some_inj] at h
          exact hy h
      · rw [if_neg hx, isCharUnescaped_spec esc (by omega) (by omega), ok_bind, ← hreb r (by omega)]
        have hx' : mem[r]? ≠ some esc := by
          rw [hxr, Ne, Option.some_inj]; exact hx
        cases he : escaped mem p esc (r - p)
        · rw [if_pos (by simp)]
          exact ⟨r, rfl, Or.inl ⟨by omega, g2, ⟨g3, he, fun h => hx' h.1⟩, before⟩⟩
        · rw [if_neg (by simp)]
          refine findFirstOfUnescapedLoop_spec hp hq fuel first (r + 1) (by omega) (by omega) (by omega)
            (by omega) hesc (fun hm i hi hi' => ?_) (fun i hi hi' => ?_)
          · by_cases hir : i = r
            · subst hir; exact hx'
            · by_cases hlt : i < str
              · exact hset hm i hi hlt
              · exact fun h => g4 i (by omega) (by omega) ⟨esc, h, hm⟩
          · by_cases hir : i = r
            · subst hir
              rintro ⟨-, h, -⟩
              rw [he] at h; cases h
            · exact before i hi (by omega)
    · rw [rd_of_get? hp.nul, ok_bind, if_pos rfl]
      refine ⟨_, rfl, Or.inr ⟨rfl, fun i hi hi' => ?_⟩⟩
      by_cases he : i < str
      · exact hno i hi he
      · exact not_match_of_byte (hs i (by omega) hi')

theorem findFirstOfUnescaped_spec {mem s set : List Byte} {p q : Nat} (hp : ZStr mem p s) (hq : ZStr mem q set)
    (hne : set ≠ []) (esc : Byte) :
    ∃ r, findFirstOfUnescaped mem p q esc = .ok r ∧
      IsFirst (UnescapedMatch mem p (p + s.length) set esc) p (p + s.length) r := by
  have hl := hp.lt
  obtain ⟨y, hy, hy0⟩ := hq.get_in (i := q) (by omega) (by have := List.length_pos_iff.2 hne; omega)
  rw [findFirstOfUnescaped, rd_of_get? hy, ok_bind, if_neg hy0]
  exact findFirstOfUnescapedLoop_spec hp hq _ p p (by omega) (by omega) (by omega) (by omega) (by simp [escaped])
    (by intros; omega) (by intros; omega)

end Tm.Str
