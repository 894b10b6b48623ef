import Verif.Str.Find
import Verif.Str.Spec
import Mathlib.Tactic.IntervalCases

/-! # Lemmas about the search functions -/

namespace Tm.Str

theorem rd_ok {mem : List Byte} {i : Nat} (h : i < mem.length) : rd mem i = .ok mem[i] := by
  simp [rd, h]

theorem rd_of_get? {mem : List Byte} {i : Nat} {x : Byte} (h : mem[i]? = some x) : rd mem i = .ok x := by
  simp [rd, h]

theorem assert_ok {b : Bool} (h : b = true) : assert b = .ok () := by simp [assert, h]

theorem distance_ok {a b : Nat} (h : a ≤ b) : distance a b = .ok (b - a) := by
  simp [distance, assert, h]

theorem slice_cons {mem : List Byte} {a b : Nat} (h : a < b) (hb : b ≤ mem.length) :
    slice mem a b = mem[a] :: slice mem (a + 1) b := by
  rw [slice, List.drop_eq_getElem_cons (by omega), show b - a = (b - (a + 1)) + 1 by omega, List.take_succ_cons, slice]

theorem slice_self (mem : List Byte) (a : Nat) : slice mem a a = [] := by simp [slice]

theorem length_slice {mem : List Byte} {a b : Nat} (hb : b ≤ mem.length) : (slice mem a b).length = b - a := by
  simp [slice]; omega

theorem getElem?_slice {mem : List Byte} {a b i : Nat} :
    (slice mem a b)[i]? = if i < b - a then mem[a + i]? else none := by
  rw [slice, List.getElem?_take]
  split <;> simp [List.getElem?_drop]

theorem mem_slice {mem : List Byte} {a b : Nat} {x : Byte} :
    x ∈ slice mem a b ↔ ∃ i, a ≤ i ∧ i < b ∧ mem[i]? = some x := by
  rw [List.mem_iff_getElem?]
  constructor
  · rintro ⟨i, hi⟩
    rw [getElem?_slice] at hi
    split at hi
    · exact ⟨a + i, by omega, by omega, hi⟩
    · simp at hi
  · rintro ⟨i, h1, h2, h3⟩
    refine ⟨i - a, ?_⟩
    rw [getElem?_slice, if_pos (by omega), show a + (i - a) = i by omega, h3]

theorem byteAt_iff {mem : List Byte} {Q : Byte → Prop} {i : Nat} (h : i < mem.length) : ByteAt mem Q i ↔ Q mem[i] := by
  rw [ByteAt, List.getElem?_eq_getElem h]; simp

/-! ## `memchr`, `memcmp` -/

theorem memchr_spec (mem : List Byte) (c : Byte) : ∀ (n p : Nat), p + n ≤ mem.length →
    ∃ r, memchr mem c p n = .ok r ∧
      ((r = none ∧ ∀ i, p ≤ i → i < p + n → ¬ ByteAt mem (· = c) i) ∨
        ∃ q, r = some q ∧ p ≤ q ∧ q < p + n ∧ ByteAt mem (· = c) q ∧ ∀ i, p ≤ i → i < q → ¬ ByteAt mem (· = c) i)
  | 0, p, _ => ⟨none, rfl, Or.inl ⟨rfl, by intros; omega⟩⟩
  | n + 1, p, h => by
    rw [memchr, rd_ok (by omega), ok_bind]
    by_cases hx : mem[p]'(by omega) = c
    · rw [if_pos hx]
      exact ⟨some p, rfl, Or.inr ⟨p, rfl, by omega, by omega, by rw [byteAt_iff (by omega)]; exact hx,
        by intros; omega⟩⟩
    · rw [if_neg hx]
      obtain ⟨r, hr, hs⟩ := memchr_spec mem c n (p + 1) (by omega)
      have hp : ¬ ByteAt mem (· = c) p := by rw [byteAt_iff (by omega)]; exact hx
      refine ⟨r, hr, ?_⟩
      rcases hs with ⟨rfl, hs⟩ | ⟨q, rfl, h1, h2, h3, h4⟩
      · refine Or.inl ⟨rfl, fun i hi hi' => ?_⟩
        by_cases he : i = p
        · subst he; exact hp
        · exact hs i (by omega) (by omega)
      · refine Or.inr ⟨q, rfl, by omega, by omega, h3, fun i hi hi' => ?_⟩
        by_cases he : i = p
        · subst he; exact hp
        · exact h4 i (by omega) (by omega)

theorem memchr_isSome (mem : List Byte) (c : Byte) (n p : Nat) (h : p + n ≤ mem.length) :
    ∃ r, memchr mem c p n = .ok r ∧ (r.isSome = true ↔ c ∈ slice mem p (p + n)) := by
  obtain ⟨r, hr, hs⟩ := memchr_spec mem c n p h
  refine ⟨r, hr, ?_⟩
  rw [mem_slice]
  rcases hs with ⟨rfl, hs⟩ | ⟨q, rfl, h1, h2, ⟨x, h3, h3'⟩, h4⟩
  · constructor
    · simp
    · rintro ⟨i, h1, h2, h3⟩
      exact absurd ⟨c, h3, rfl⟩ (hs i h1 h2)
  · constructor
    · intro _; exact ⟨q, h1, h2, by rw [h3, h3']⟩
    · simp

theorem byte_ne_of {x y : Byte} (h : x ≠ y) : (x.toNat : Int) - y.toNat ≠ 0 := by
  intro he
  apply h
  apply BitVec.eq_of_toNat_eq
  omega

theorem memcmp_spec (mem : List Byte) : ∀ (n a b : Nat), a + n ≤ mem.length → b + n ≤ mem.length →
    ∃ r, memcmp mem a b n = .ok r ∧ (r = 0 ↔ slice mem a (a + n) = slice mem b (b + n))
  | 0, a, b, _, _ => ⟨0, by simp [memcmp], by simp [slice]⟩
  | n + 1, a, b, ha, hb => by
    rw [memcmp, rd_ok (by omega), ok_bind, rd_ok (by omega), ok_bind]
    rw [show a + (n + 1) = a + 1 + n by omega, show b + (n + 1) = b + 1 + n by omega]
    rw [slice_cons (a := a) (by omega) (by omega), slice_cons (a := b) (by omega) (by omega)]
    by_cases hx : mem[a]'(by omega) = mem[b]'(by omega)
    · rw [if_neg (by simpa using hx)]
      obtain ⟨r, hr, hs⟩ := memcmp_spec mem n (a + 1) (b + 1) (by omega) (by omega)
      refine ⟨r, hr, ?_⟩
      rw [hs, hx]
      simp
    · rw [if_pos hx]
      exact ⟨_, rfl, by simp [byte_ne_of hx, hx]⟩

/-! ## Characters in ranges -/

theorem findCharN_spec {mem : List Byte} {a b : Nat} (h : Range mem a b) (c : Byte) :
    ∃ r, findCharN mem a b c = .ok r ∧ IsFirst (ByteAt mem (· = c)) a b r := by
  obtain ⟨h1, h2⟩ := h
  unfold findCharN
  by_cases he : a = b
  · subst he
    exact ⟨a, by simp, Or.inr ⟨rfl, by intros; omega⟩⟩
  · rw [if_neg he, distance_ok h1, ok_bind]
    obtain ⟨r, hr, hs⟩ := memchr_spec mem c (b - a) a (by omega)
    rw [hr, ok_bind]
    refine ⟨_, rfl, ?_⟩
    rcases hs with ⟨rfl, hs⟩ | ⟨q, rfl, h1', h2', h3, h4⟩
    · exact Or.inr ⟨rfl, fun i hi hi' => hs i hi (by omega)⟩
    · exact Or.inl ⟨h1', by simp only [Option.getD_some]; omega, h3, h4⟩

theorem findChar2N_spec {mem : List Byte} {a b : Nat} (h : Range mem a b) (c d : Byte) :
    ∃ r, findChar2N mem a b c d = .ok r ∧ IsFirst (ByteAt mem (fun x => x = c ∨ x = d)) a b r := by
  obtain ⟨h1, h2⟩ := h
  unfold findChar2N
  rw [distance_ok h1, ok_bind]
  by_cases he : b - a = 0
  · rw [if_pos he]
    exact ⟨b, rfl, Or.inr ⟨rfl, by intros; omega⟩⟩
  · rw [if_neg he]
    obtain ⟨r, hr, hs⟩ := memchr_spec mem c (b - a) a (by omega)
    obtain ⟨r', hr', hs'⟩ := memchr_spec mem d (b - a) a (by omega)
    rw [hr, ok_bind, hr', ok_bind]
    refine ⟨_, rfl, ?_⟩
    have nor : ∀ i, ¬ ByteAt mem (· = c) i → ¬ ByteAt mem (· = d) i → ¬ ByteAt mem (fun x => x = c ∨ x = d) i := by
      rintro i hc hd ⟨x, hx, rfl | rfl⟩
      · exact hc ⟨_, hx, rfl⟩
      · exact hd ⟨_, hx, rfl⟩
    have inl : ∀ i, ByteAt mem (· = c) i → ByteAt mem (fun x => x = c ∨ x = d) i := by
      rintro i ⟨x, hx, rfl⟩; exact ⟨x, hx, Or.inl rfl⟩
    have inr : ∀ i, ByteAt mem (· = d) i → ByteAt mem (fun x => x = c ∨ x = d) i := by
      rintro i ⟨x, hx, rfl⟩; exact ⟨x, hx, Or.inr rfl⟩
    rcases hs with ⟨rfl, hs⟩ | ⟨q, rfl, h1', h2', h3, h4⟩ <;>
      rcases hs' with ⟨rfl, hs'⟩ | ⟨q', rfl, h1'', h2'', h3', h4'⟩
    · simp only [Option.getD_none, Nat.lt_irrefl, if_false]
      exact Or.inr ⟨rfl, fun i hi hi' => nor i (hs i hi (by omega)) (hs' i hi (by omega))⟩
    · simp only [Option.getD_none, Option.getD_some]
      rw [if_neg (by omega)]
      exact Or.inl ⟨h1'', by omega, inr _ h3', fun i hi hi' => nor i (hs i hi (by omega)) (h4' i hi hi')⟩
    · simp only [Option.getD_none, Option.getD_some]
      rw [if_pos (by omega)]
      exact Or.inl ⟨h1', by omega, inl _ h3, fun i hi hi' => nor i (h4 i hi hi') (hs' i hi (by omega))⟩
    · simp only [Option.getD_some]
      by_cases hlt : q < q'
      · rw [if_pos hlt]
        exact Or.inl ⟨h1', by omega, inl _ h3, fun i hi hi' => nor i (h4 i hi hi') (h4' i hi (by omega))⟩
      · rw [if_neg hlt]
        exact Or.inl ⟨h1'', by omega, inr _ h3', fun i hi hi' => nor i (h4 i hi (by omega)) (h4' i hi hi')⟩

theorem findLastCharL_spec (mem : List Byte) (first : Nat) (c : Byte) (nf : Nat) : ∀ n, first + n ≤ mem.length →
    ∃ r, findLastCharL mem first c nf n = .ok r ∧
      ((first ≤ r ∧ r < first + n ∧ ByteAt mem (· = c) r ∧ ∀ i, r < i → i < first + n → ¬ ByteAt mem (· = c) i) ∨
        (r = nf ∧ ∀ i, first ≤ i → i < first + n → ¬ ByteAt mem (· = c) i))
  | 0, _ => ⟨nf, rfl, Or.inr ⟨rfl, by intros; omega⟩⟩
  | n + 1, h => by
    rw [findLastCharL, rd_ok (by omega), ok_bind]
    by_cases hx : mem[first + n]'(by omega) = c
    · rw [if_pos hx]
      exact ⟨_, rfl, Or.inl ⟨by omega, by omega, by rw [byteAt_iff (by omega)]; exact hx, by intros; omega⟩⟩
    · rw [if_neg hx]
      obtain ⟨r, hr, hs⟩ := findLastCharL_spec mem first c nf n (by omega)
      have hp : ¬ ByteAt mem (· = c) (first + n) := by rw [byteAt_iff (by omega)]; exact hx
      refine ⟨r, hr, ?_⟩
      rcases hs with ⟨h1, h2, h3, h4⟩ | ⟨rfl, hs⟩
      · refine Or.inl ⟨h1, by omega, h3, fun i hi hi' => ?_⟩
        by_cases he : i = first + n
        · subst he; exact hp
        · exact h4 i hi (by omega)
      · refine Or.inr ⟨rfl, fun i hi hi' => ?_⟩
        by_cases he : i = first + n
        · subst he; exact hp
        · exact hs i hi (by omega)

theorem findLastCharNEx_spec {mem : List Byte} {a b : Nat} (h : Range mem a b) (c : Byte) (nf : Nat) :
    ∃ r, findLastCharNEx mem a b c nf = .ok r ∧ IsLast (ByteAt mem (· = c)) a b (some nf) (some r) := by
  obtain ⟨h1, h2⟩ := h
  rw [findLastCharNEx, assert_ok (by simpa using h1), ok_bind]
  obtain ⟨r, hr, hs⟩ := findLastCharL_spec mem a c nf (b - a) (by omega)
  refine ⟨r, hr, ?_⟩
  rw [show a + (b - a) = b by omega] at hs
  rcases hs with ⟨h1, h2, h3, h4⟩ | ⟨rfl, hs⟩
  · exact Or.inl ⟨r, rfl, h1, h2, h3, h4⟩
  · exact Or.inr ⟨rfl, hs⟩

/-! ## Substrings -/

theorem occurs_iff {mem : List Byte} {hi f fl i : Nat} (hf : f < fl) (hfl : fl ≤ mem.length) (hhi : hi ≤ mem.length)
    (hi' : i + (fl - f) ≤ hi) :
    Occurs mem hi (slice mem f fl) i ↔
      (ByteAt mem (· = mem[f]) i ∧ slice mem (i + 1) (i + 1 + (fl - f - 1)) = slice mem (f + 1) (f + 1 + (fl - f - 1))) := by
  rw [Occurs, length_slice hfl, show i + (fl - f) = i + 1 + (fl - f - 1) by omega, byteAt_iff (by omega),
    slice_cons (a := i) (by omega) (by omega),
    slice_cons (a := f) hf hfl]
  rw [show f + 1 + (fl - f - 1) = fl by omega]
  simp
  intros; omega

theorem findNLoop_spec {mem : List Byte} {last f fl : Nat} (hf : f < fl) (hfl : fl ≤ mem.length) (hl : last ≤ mem.length)
    (hlen : fl - f ≤ last) : ∀ fuel cur, cur ≤ last - (fl - f - 1) → last - (fl - f - 1) - cur < fuel →
    ∃ r, findNLoop mem last (last - (fl - f - 1)) (f + 1) (fl - f - 1) mem[f] fuel cur = .ok r ∧
      IsFirst (Occurs mem last (slice mem f fl)) cur last r
  | 0, _, _, h => by omega
  | fuel + 1, cur, hc, hfu => by
    rw [findNLoop]
    obtain ⟨r, hr, hs⟩ := findCharN_spec (mem := mem) (a := cur) (b := last - (fl - f - 1)) ⟨hc, by omega⟩ mem[f]
    rw [hr, ok_bind]
    have nope : ∀ i, last - (fl - f - 1) ≤ i → ¬ Occurs mem last (slice mem f fl) i := by
      intro i hi ho
      have := ho.1
      rw [length_slice hfl] at this
      omega
    rcases hs with ⟨h1, h2, h3, h4⟩ | ⟨rfl, hs⟩
    · rw [if_neg (by omega)]
      obtain ⟨k, hk, hk0⟩ := memcmp_spec mem (fl - f - 1) (r + 1) (f + 1) (by omega) (by omega)
      rw [hk, ok_bind]
      have before : ∀ i, cur ≤ i → i < r → ¬ Occurs mem last (slice mem f fl) i := by
        intro i hi hi' ho
        rw [occurs_iff hf hfl hl (by omega)] at ho
        exact h4 i hi hi' ho.1
      by_cases hz : k = 0
      · rw [if_pos hz]
        refine ⟨r, rfl, Or.inl ⟨h1, by omega, ?_, before⟩⟩
        rw [occurs_iff hf hfl hl (by omega)]
        exact ⟨h3, hk0.1 hz⟩
      · rw [if_neg hz]
        obtain ⟨r', hr', hs'⟩ := findNLoop_spec hf hfl hl hlen fuel (r + 1) (by omega) (by omega)
        have hrn : ¬ Occurs mem last (slice mem f fl) r := by
          intro ho
          rw [occurs_iff hf hfl hl (by omega)] at ho
          exact hz (hk0.2 ho.2)
        have upto : ∀ i, cur ≤ i → i < r + 1 → ¬ Occurs mem last (slice mem f fl) i := by
          intro i hi hi'
          by_cases he : i = r
          · subst he; exact hrn
          · exact before i hi (by omega)
        refine ⟨r', hr', ?_⟩
        rcases hs' with ⟨g1, g2, g3, g4⟩ | ⟨rfl, hs'⟩
        · refine Or.inl ⟨by omega, g2, g3, fun i hi hi' => ?_⟩
          by_cases he : i < r + 1
          · exact upto i hi he
          · exact g4 i (by omega) hi'
        · refine Or.inr ⟨rfl, fun i hi hi' => ?_⟩
          by_cases he : i < r + 1
          · exact upto i hi he
          · exact hs' i (by omega) hi'
    · rw [if_pos rfl]
      refine ⟨last, rfl, Or.inr ⟨rfl, fun i hi hi' => ?_⟩⟩
      by_cases he : i < last - (fl - f - 1)
      · intro ho
        rw [occurs_iff hf hfl hl (by omega)] at ho
        exact hs i hi he ho.1
      · exact nope i (by omega)

theorem findN_spec {mem : List Byte} {a b f fl : Nat} (h : Range mem a b) (hf : Range mem f fl) :
    ∃ r, findN mem a b f fl = .ok r ∧
      (f < fl → IsFirst (Occurs mem b (slice mem f fl)) a b r) ∧ (f = fl → r = a) := by
  obtain ⟨h1, h2⟩ := h
  obtain ⟨h3, h4⟩ := hf
  rw [findN, assert_ok (by simpa using h1), ok_bind, assert_ok (by simpa using h3), ok_bind, distance_ok h3, ok_bind]
  by_cases he : fl - f = 0
  · rw [if_pos he]
    exact ⟨a, rfl, by intros; omega, fun _ => rfl⟩
  · rw [if_neg he, distance_ok h1, ok_bind]
    by_cases hlen : fl - f > b - a
    · rw [if_pos hlen]
      refine ⟨b, rfl, fun _ => Or.inr ⟨rfl, fun i hi hi' ho => ?_⟩, by intros; omega⟩
      have := ho.1
      rw [length_slice h4] at this
      omega
    · rw [if_neg hlen, rd_ok (by omega), ok_bind]
      obtain ⟨r, hr, hs⟩ := findNLoop_spec (mem := mem) (last := b) (f := f) (fl := fl) (by omega) h4 h2 (by omega)
        (b - (fl - f - 1) - a + 1) a (by omega) (by omega)
      exact ⟨r, hr, fun _ => hs, by intros; omega⟩

theorem findLastNLoop_spec {mem : List Byte} {first last f fl : Nat} (nf : Nat) (hf : f < fl) (hfl : fl ≤ mem.length)
    (hl : last ≤ mem.length) (hlen : fl - f ≤ last - first) : ∀ fuel prev, first ≤ prev → prev ≤ last - (fl - f - 1) →
    prev - first < fuel → (∀ i, prev ≤ i → i < last → ¬ Occurs mem last (slice mem f fl) i) →
    ∃ r, findLastNLoop mem first (f + 1) (fl - f - 1) mem[f] nf fuel prev = .ok r ∧
      IsLast (Occurs mem last (slice mem f fl)) first last (some nf) (some r)
  | 0, _, _, _, h, _ => by omega
  | fuel + 1, prev, hp, hp', hfu, hno => by
    rw [findLastNLoop, findLastCharN]
    obtain ⟨r, hr, hs⟩ := findLastCharNEx_spec (mem := mem) (a := first) (b := prev) ⟨hp, by omega⟩ mem[f] prev
    rw [hr, ok_bind]
    rcases hs with ⟨k, hk, h1, h2, h3, h4⟩ | ⟨hk, hs⟩
    · cases hk
      rw [if_neg (by omega)]
      obtain ⟨k, hk, hk0⟩ := memcmp_spec mem (fl - f - 1) (r + 1) (f + 1) (by omega) (by omega)
      rw [hk, ok_bind]
      have after : ∀ i, r < i → i < last → ¬ Occurs mem last (slice mem f fl) i := by
        intro i hi hi' ho
        by_cases he : prev ≤ i
        · exact hno i he hi' ho
        · rw [occurs_iff hf hfl hl (by omega)] at ho
          exact h4 i hi (by omega) ho.1
      by_cases hz : k = 0
      · rw [if_pos hz]
        refine ⟨r, rfl, Or.inl ⟨r, rfl, h1, by omega, ?_, after⟩⟩
        rw [occurs_iff hf hfl hl (by omega)]
        exact ⟨h3, hk0.1 hz⟩
      · rw [if_neg hz]
        apply findLastNLoop_spec nf hf hfl hl hlen fuel r (by omega) (by omega) (by omega)
        intro i hi hi'
        by_cases he : i = r
        · subst he
          intro ho
          rw [occurs_iff hf hfl hl (by omega)] at ho
          exact hz (hk0.2 ho.2)
        · exact after i (by omega) hi'
    · cases hk
      rw [if_pos rfl]
      refine ⟨nf, rfl, Or.inr ⟨rfl, fun i hi hi' ho => ?_⟩⟩
      by_cases he : prev ≤ i
      · exact hno i he hi' ho
      · rw [occurs_iff hf hfl hl (by omega)] at ho
        exact hs i hi (by omega) ho.1

theorem findLastNEx_spec {mem : List Byte} {a b f fl : Nat} (nf : Nat) (h : Range mem a b) (hf : Range mem f fl) :
    ∃ r, findLastNEx mem a b f fl nf = .ok r ∧
      (f < fl → IsLast (Occurs mem b (slice mem f fl)) a b (some nf) (some r)) ∧ (f = fl → r = a) := by
  obtain ⟨h1, h2⟩ := h
  obtain ⟨h3, h4⟩ := hf
  rw [findLastNEx, assert_ok (by simpa using h1), ok_bind, assert_ok (by simpa using h3), ok_bind, distance_ok h3, ok_bind]
  by_cases he : fl - f = 0
  · rw [if_pos he]
    exact ⟨a, rfl, by intros; omega, fun _ => rfl⟩
  · rw [if_neg he, distance_ok h1, ok_bind]
    by_cases hlen : fl - f > b - a
    · rw [if_pos hlen]
      refine ⟨nf, rfl, fun _ => Or.inr ⟨rfl, fun i hi hi' ho => ?_⟩, by intros; omega⟩
      have := ho.1
      rw [length_slice h4] at this
      omega
    · rw [if_neg hlen, rd_ok (by omega), ok_bind]
      obtain ⟨r, hr, hs⟩ := findLastNLoop_spec (mem := mem) (first := a) (last := b) (f := f) (fl := fl) nf (by omega) h4
        h2 (by omega) (b - (fl - f - 1) - a + 1) (b - (fl - f - 1)) (by omega) (by omega) (by omega) (by
          intro i hi hi' ho
          have := ho.1
          rw [length_slice h4] at this
          omega)
      exact ⟨r, hr, fun _ => hs, by intros; omega⟩

/-! ## Sets of characters in ranges -/

theorem findFirstOfLoop_spec {mem : List Byte} {f fl : Nat} (hf : Range mem f fl) (stay : Bool) : ∀ n a, a + n ≤ mem.length →
    ∃ r, findFirstOfLoop mem f (fl - f) stay a n = .ok r ∧
      IsFirst (ByteAt mem (fun x => ¬ (x ∈ slice mem f fl ↔ stay = true))) a (a + n) r
  | 0, a, _ => ⟨a, rfl, Or.inr ⟨rfl, by intros; omega⟩⟩
  | n + 1, a, h => by
    rw [findFirstOfLoop, rd_ok (by omega), ok_bind]
    obtain ⟨hf1, hf2⟩ := hf
    obtain ⟨m, hm, hm'⟩ := memchr_isSome mem mem[a] (fl - f) f (by omega)
    rw [show f + (fl - f) = fl by omega] at hm'
    rw [hm, ok_bind]
    have key : (m.isSome = stay) ↔ (mem[a] ∈ slice mem f fl ↔ stay = true) := by
      rw [← hm']
      cases m.isSome <;> cases stay <;> simp
    by_cases hc : m.isSome = stay
    · rw [if_pos hc]
      obtain ⟨r, hr, hs⟩ := findFirstOfLoop_spec ⟨hf1, hf2⟩ stay n (a + 1) (by omega)
      have hno : ¬ ByteAt mem (fun x => ¬ (x ∈ slice mem f fl ↔ stay = true)) a := by
        rw [byteAt_iff (by omega)]
        exact not_not_intro (key.1 hc)
      refine ⟨r, hr, ?_⟩
      rcases hs with ⟨h1, h2, h3, h4⟩ | ⟨rfl, hs⟩
      · refine Or.inl ⟨by omega, by omega, h3, fun i hi hi' => ?_⟩
        by_cases he : i = a
        · subst he; exact hno
        · exact h4 i (by omega) hi'
      · refine Or.inr ⟨by omega, fun i hi hi' => ?_⟩
        by_cases he : i = a
        · subst he; exact hno
        · exact hs i (by omega) (by omega)
    · rw [if_neg hc]
      refine ⟨a, rfl, Or.inl ⟨by omega, by omega, ?_, by intros; omega⟩⟩
      rw [byteAt_iff (by omega)]
      exact fun h => hc (key.2 h)

theorem findLastOfLoop_spec {mem : List Byte} {f fl : Nat} (hf : Range mem f fl) (stay : Bool) (a : Nat) : ∀ n, a + n ≤ mem.length →
    ∃ k, findLastOfLoop mem a f (fl - f) stay n = .ok k ∧ k ≤ n ∧
      (k ≠ 0 → ByteAt mem (fun x => ¬ (x ∈ slice mem f fl ↔ stay = true)) (a + k - 1)) ∧
      ∀ i, a + k ≤ i → i < a + n → ¬ ByteAt mem (fun x => ¬ (x ∈ slice mem f fl ↔ stay = true)) i
  | 0, _ => ⟨0, rfl, by omega, by simp, by intros; omega⟩
  | n + 1, h => by
    rw [findLastOfLoop, rd_ok (by omega), ok_bind]
    obtain ⟨hf1, hf2⟩ := hf
    obtain ⟨m, hm, hm'⟩ := memchr_isSome mem mem[a + n] (fl - f) f (by omega)
    rw [show f + (fl - f) = fl by omega] at hm'
    rw [hm, ok_bind]
    have key : (m.isSome = stay) ↔ (mem[a + n] ∈ slice mem f fl ↔ stay = true) := by
      rw [← hm']
      cases m.isSome <;> cases stay <;> simp
    by_cases hc : m.isSome = stay
    · rw [if_pos hc]
      obtain ⟨k, hk, h1, h2, h3⟩ := findLastOfLoop_spec ⟨hf1, hf2⟩ stay a n (by omega)
      refine ⟨k, hk, by omega, h2, fun i hi hi' => ?_⟩
      by_cases he : i = a + n
      · subst he
        rw [byteAt_iff (by omega)]
        exact not_not_intro (key.1 hc)
      · exact h3 i hi (by omega)
    · rw [if_neg hc]
      refine ⟨n + 1, rfl, by omega, fun _ => ?_, by intros; omega⟩
      rw [show a + (n + 1) - 1 = a + n by omega, byteAt_iff (by omega)]
      exact fun h => hc (key.2 h)

end Tm.Str
