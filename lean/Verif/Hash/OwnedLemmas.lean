import Verif.Hash.Owned
import Verif.Hash.Hist
namespace Tm.Hash.Owned

/-! ## Ownership -/

/-- The blocks in use are exactly those of the list, each once. -/
structure Owns (h : Heap) (l : List Nat) : Prop where
  count : ∀ a, l.count a = if (h.live a).isSome then 1 else 0
  fresh : ∀ a, (h.live a).isSome = true → a < h.calls

/-- The blocks of the list are as they were. -/
def Keep (h h' : Heap) (l : List Nat) : Prop := ∀ a ∈ l, h'.live a = h.live a

theorem Keep.refl (h : Heap) (l : List Nat) : Keep h h l := fun _ _ => rfl
theorem Keep.trans {h1 h2 h3 : Heap} {l : List Nat} (a : Keep h1 h2 l) (b : Keep h2 h3 l) : Keep h1 h3 l :=
  fun x hx => (b x hx).trans (a x hx)
theorem Keep.sub {h h' : Heap} {l l' : List Nat} (a : Keep h h' l) (s : ∀ x ∈ l', x ∈ l) : Keep h h' l' := fun x hx => a x (s x hx)

variable {h h' : Heap} {l l' : List Nat}

theorem Owns.congr (o : Owns h l) (e : ∀ a, l'.count a = l.count a) : Owns h l' := ⟨fun a => (e a).trans (o.count a), o.fresh⟩

theorem Owns.live (o : Owns h l) {a : Nat} (ha : a ∈ l) : (h.live a).isSome = true := by
  have := o.count a
  have h1 := List.count_pos_iff.mpr ha
  split at this
  · assumption
  · omega

theorem Owns.free {a : Nat} (o : Owns h (a :: l)) : ∃ h', free a h = .ok h' ∧ Owns h' l ∧ Keep h h' l ∧ h'.calls = h.calls := by
  have ha := o.live (List.mem_cons_self (a := a) (l := l))
  have hc := o.count a
  rw [if_pos ha, List.count_cons_self] at hc
  have hn : a ∉ l := fun hm => by have := List.count_pos_iff.mpr hm; omega
  refine ⟨⟨fun x => if x = a then none else h.live x, h.calls⟩, by unfold Owned.free; rw [if_pos ha], ⟨fun x => ?_, fun x hx => ?_⟩, fun x hx => ?_, rfl⟩
  · show l.count x = if (if x = a then none else h.live x).isSome then 1 else 0
    by_cases hx : x = a
    · subst hx; rw [if_pos rfl]; simpa using List.count_eq_zero.mpr hn
    · rw [if_neg hx, ← o.count x, List.count_cons_of_ne (fun e => hx e.symm)]
  · show x < h.calls
    have hx : (if x = a then none else h.live x).isSome = true := hx
    by_cases he : x = a
    · rw [if_pos he] at hx; cases hx
    · rw [if_neg he] at hx; exact o.fresh x hx
  · show (if x = a then none else h.live x) = _
    rw [if_neg (by rintro rfl; exact hn hx)]

/-- `malloc` either gives a new block, or nothing. -/
theorem Owns.malloc (o : Owns h l) (mem : Nat → Bool) (n : Nat) (bytes : List Byte) :
    (canAlloc mem h.calls n = true ∧ ∃ h', malloc mem n bytes h = (some h.calls, h') ∧ Owns h' (h.calls :: l) ∧ Keep h h' l ∧
      h'.live h.calls = some bytes ∧ h'.calls = h.calls + 1) ∨
    (canAlloc mem h.calls n = false ∧ ∃ h', malloc mem n bytes h = (none, h') ∧ Owns h' l ∧ Keep h h' l ∧ h'.calls = h.calls + 1) := by
  have hnew : (h.live h.calls).isSome = false := by
    cases e : (h.live h.calls).isSome with
    | false => rfl
    | true => exact absurd (o.fresh _ e) (by omega)
  unfold Owned.malloc
  cases hc : canAlloc mem h.calls n with
  | true =>
    rw [if_pos rfl]
    refine Or.inl ⟨rfl, _, rfl, ⟨fun x => ?_, fun x hx => ?_⟩, fun x hx => ?_, if_pos rfl, rfl⟩
    · show (h.calls :: l).count x = if (if x = h.calls then some bytes else h.live x).isSome then 1 else 0
      by_cases hx : x = h.calls
      · subst hx
        rw [if_pos rfl, List.count_cons_self, o.count, hnew]; rfl
      · rw [if_neg hx, List.count_cons_of_ne (fun e => hx e.symm), o.count]
    · show x < h.calls + 1
      have hx : (if x = h.calls then some bytes else h.live x).isSome = true := hx
      by_cases he : x = h.calls
      · omega
      · rw [if_neg he] at hx; have := o.fresh x hx; omega
    · show (if x = h.calls then some bytes else h.live x) = _
      rw [if_neg]
      rintro rfl
      rw [o.live hx] at hnew; cases hnew
  | false =>
    rw [if_neg (by simp)]
    exact Or.inr ⟨rfl, _, rfl, ⟨o.count, fun x hx => Nat.lt_succ_of_lt (o.fresh x hx)⟩, Keep.refl _ _, rfl⟩

/-! ## Strings -/

/-- The chars of a string. -/
def chars (s : List Byte) : List Byte := s.takeWhile (· ≠ 0)

theorem strlen_eq : ∀ {s : List Byte}, 0 ∈ s → strlen s = .ok (chars s).length
  | [], h => by cases h
  | b :: s, h => by
    unfold strlen chars
    by_cases hb : b = 0
    · rw [if_pos hb, List.takeWhile_cons_of_neg (by simpa using hb)]; rfl
    · rw [if_neg hb, List.takeWhile_cons_of_pos (by simpa using hb)]
      have : (0 : Byte) ∈ s := by
        rcases List.mem_cons.mp h with e | e
        · exact absurd e.symm hb
        · exact e
      rw [strlen_eq this]
      rfl

theorem take_strlen : ∀ {s : List Byte}, 0 ∈ s → s.take ((chars s).length + 1) = chars s ++ [0]
  | [], h => by cases h
  | b :: s, h => by
    unfold chars
    by_cases hb : b = 0
    · rw [List.takeWhile_cons_of_neg (by simpa using hb), hb]; simp
    · rw [List.takeWhile_cons_of_pos (by simpa using hb)]
      have : (0 : Byte) ∈ s := by
        rcases List.mem_cons.mp h with e | e
        · exact absurd e.symm hb
        · exact e
      have ih := take_strlen this
      unfold chars at ih
      simp only [List.length_cons, List.take_succ_cons, ih, List.cons_append]

theorem chars_term (s : List Byte) : chars (chars s ++ [0]) = chars s := by
  unfold chars
  induction s with
  | nil => rfl
  | cons b s ih =>
    by_cases hb : b = 0
    · rw [List.takeWhile_cons_of_neg (by simpa using hb)]; rfl
    · rw [List.takeWhile_cons_of_pos (by simpa using hb), List.cons_append, List.takeWhile_cons_of_pos (by simpa using hb), ih]

theorem strEq_eq : ∀ {s t : List Byte}, 0 ∈ s → 0 ∈ t → strEq s t = .ok (decide (chars s = chars t))
  | [], _, h, _ => by cases h
  | _ :: _, [], _, h => by cases h
  | a :: s, b :: t, hs, ht => by
    unfold strEq chars
    by_cases ha : a = 0
    · rw [List.takeWhile_cons_of_neg (by simpa using ha)]
      by_cases hb : b = 0
      · rw [List.takeWhile_cons_of_neg (by simpa using hb), if_neg (by simp [ha, hb]), if_pos ha]; simp
      · rw [List.takeWhile_cons_of_pos (by simpa using hb), if_pos (by rw [ha]; exact fun e => hb e.symm)]; simp
    · rw [List.takeWhile_cons_of_pos (by simpa using ha)]
      have hs' : (0 : Byte) ∈ s := by
        rcases List.mem_cons.mp hs with e | e
        · exact absurd e.symm ha
        · exact e
      by_cases hb : b = 0
      · rw [List.takeWhile_cons_of_neg (by simpa using hb), if_pos (by rw [hb]; exact ha)]; simp
      · rw [List.takeWhile_cons_of_pos (by simpa using hb)]
        have ht' : (0 : Byte) ∈ t := by
          rcases List.mem_cons.mp ht with e | e
          · exact absurd e.symm hb
          · exact e
        by_cases hab : a = b
        · rw [if_neg (by simp [hab]), if_neg ha, strEq_eq hs' ht', hab]
          unfold chars
          simp
        · rw [if_pos hab]; simp [hab]

/-- The hash of the chars. -/
def hashChars : Option (List Byte) → U64
  | none => 0
  | some s => fnvLoop s 0xCBF29CE484222325

theorem strLoop_eq : ∀ {s : List Byte} (x : U64), 0 ∈ s → strLoop s x = .ok (fnvLoop (chars s) x)
  | [], _, h => by cases h
  | b :: s, x, h => by
    unfold strLoop chars
    by_cases hb : b = 0
    · rw [if_pos hb, List.takeWhile_cons_of_neg (by simpa using hb)]; rfl
    · rw [if_neg hb, List.takeWhile_cons_of_pos (by simpa using hb)]
      have : (0 : Byte) ∈ s := by
        rcases List.mem_cons.mp h with e | e
        · exact absurd e.symm hb
        · exact e
      rw [strLoop_eq _ this]
      rfl

theorem stringHash_eq {s : List Byte} (hs : 0 ∈ s) : stringHash (some s) = .ok (hashChars (some (chars s))) := strLoop_eq _ hs

/-- Keys are identified by their chars; the tombstone is the null pointer. -/
abbrev stringKeys : Keys (Option (List Byte)) := ⟨none, hashChars⟩

/-! ## Values -/

variable {V X W : Type}

/-- The macros for values own memory properly: `own v` are the blocks of `v`, `val` is what it means, `given` what the caller's value
means, `Fine` which values of the caller may be copied. -/
structure Proper (vs : Values V X) (own : V → List Nat) (val : Heap → V → W) (Fine : X → Prop) (given : X → W) : Prop where
  copy : ∀ (mem : Nat → Bool) (x : X) (h : Heap) (l : List Nat), Fine x → Owns h l →
    (∃ v h', vs.copy mem x h = .ok (true, some v, h') ∧ Owns h' (own v ++ l) ∧ Keep h h' l ∧ val h' v = given x ∧ h.calls ≤ h'.calls) ∨
    (∃ o h', vs.copy mem x h = .ok (false, o, h') ∧ Owns h' l ∧ Keep h h' l ∧ h.calls ≤ h'.calls)
  left : ∀ (v : V) (h : Heap), ∃ o, vs.destroy (vs.left (some v)) h = .ok (o, h)
  destroy : ∀ (v : V) (h : Heap) (l : List Nat), Owns h (own v ++ l) →
    ∃ o h', vs.destroy (some v) h = .ok (o, h') ∧ Owns h' l ∧ Keep h h' l ∧ h'.calls = h.calls
  val : ∀ (v : V) (h h' : Heap), Keep h h' (own v) → val h' v = val h v

theorem trivial_proper (V : Type) : Proper (trivialValues V) (fun _ => []) (fun _ v => v) (fun _ => True) id where
  copy := fun _ x h _ _ o => Or.inl ⟨x, h, rfl, o, Keep.refl _ _, rfl, Nat.le_refl _⟩
  left := fun _ _ => ⟨_, rfl⟩
  destroy := fun _ h _ o => ⟨_, h, rfl, o, Keep.refl _ _, rfl⟩
  val := fun _ _ _ _ => rfl

/-- What a pointer to a string means. -/
def contentsOf (h : Heap) (p : Ptr) : Option (List Byte) := p.bind fun a => (h.live a).map chars

theorem contentsOf_keep {p : Ptr} (k : Keep h h' p.toList) : contentsOf h' p = contentsOf h p := by
  cases p with
  | none => rfl
  | some a => unfold contentsOf; rw [Option.bind_some, Option.bind_some, k a (by simp)]

theorem stringCopy_spec (mem : Nat → Bool) (out : Option Ptr) {s : List Byte} (hs : 0 ∈ s) (o : Owns h l) :
    (∃ a h', stringCopy mem out (some s) h = .ok (true, some (some a), h') ∧ Owns h' (a :: l) ∧ Keep h h' l ∧
      h'.live a = some (chars s ++ [0]) ∧ h'.calls = h.calls + 1) ∨
    (∃ h', stringCopy mem out (some s) h = .ok (false, some none, h') ∧ Owns h' l ∧ Keep h h' l ∧ h'.calls = h.calls + 1) := by
  unfold stringCopy
  simp only [strlen_eq hs, ok_bind, take_strlen hs]
  rcases o.malloc mem ((chars s).length + 1) (chars s ++ [0]) with ⟨_, h', e, o', k, hb, hc⟩ | ⟨_, h', e, o', k, hc⟩
  · rw [e]; exact Or.inl ⟨_, h', rfl, o', k, hb, hc⟩
  · rw [e]; exact Or.inr ⟨h', rfl, o', k, hc⟩

theorem stringDestroy_spec {p : Ptr} (o : Owns h (p.toList ++ l)) :
    ∃ h', stringDestroy (some p) h = .ok (some none, h') ∧ Owns h' l ∧ Keep h h' l ∧ h'.calls = h.calls := by
  cases p with
  | none => exact ⟨h, rfl, o, Keep.refl _ _, rfl⟩
  | some a =>
    obtain ⟨h', e, o', k, c⟩ := Owns.free (l := l) o
    refine ⟨h', ?_, o', k, c⟩
    unfold stringDestroy
    simp only [e, ok_bind]

theorem string_proper : Proper (stringValues true) (fun p => p.toList) contentsOf (fun x => ∃ s, x = some s ∧ 0 ∈ s) (fun x => x.map chars) where
  copy := by
    rintro mem x h l ⟨s, rfl, hs⟩ o
    rcases stringCopy_spec mem none hs o with ⟨a, h', e, o', k, hb, hc⟩ | ⟨h', e, o', k, hc⟩
    · refine Or.inl ⟨some a, h', e, o', k, ?_, by omega⟩
      unfold contentsOf
      rw [Option.bind_some, hb, Option.map_some, chars_term]; rfl
    · exact Or.inr ⟨_, h', e, o', k, by omega⟩
  left := fun _ _ => ⟨_, rfl⟩
  destroy := fun _ _ _ o => by
    obtain ⟨h', e, o', k, c⟩ := stringDestroy_spec o
    exact ⟨_, h', e, o', k, c⟩
  val := fun _ _ _ k => contentsOf_keep k

end Tm.Hash.Owned
