import Verif.Poly.Props

/-!
# C184: the limit for indices

What the function does if the output has room for fewer triangles than the polygon has: with assertions on, nothing is written behind the limit.
-/

namespace Tm.Poly

variable {F : Type} {A : Arith F}

theorem bind_inv {α β : Type} {x : C α} {f : α → C β} {b : β} (h : (x >>= f) = .ok b) : ∃ a, x = .ok a ∧ f a = .ok b := by
  cases x with
  | error e => cases h
  | ok a => exact ⟨a, rfl, h⟩

theorem assert_inv {c : Bool} {u : Unit} (h : assert c = .ok u) : c = true := by
  cases c with
  | true => rfl
  | false => cases h

theorem wr_inv {α : Type} {b b' : List α} {i : Nat} {v : α} (h : wr b i v = .ok b') : b' = b.set i v := by
  unfold wr at h
  split at h
  · injection h with h
    exact h.symm
  · cases h

theorem emit_limit {clockwise : Bool} {begin qa qb qc : BitVec 16} {out out' : List (BitVec 16)} {indices limit : Nat} (h : indices + 3 ≤ limit)
    (e : emit clockwise begin qa qb qc out indices = .ok out') : out'.drop limit = out.drop limit ∧ out'.length = out.length := by
  unfold emit at e
  obtain ⟨o1, e1, e⟩ := bind_inv e
  obtain ⟨o2, e2, e⟩ := bind_inv e
  rw [wr_inv e, wr_inv e2, wr_inv e1]
  simp only [List.length_set, and_true]
  rw [List.drop_set_of_lt (by omega), List.drop_set_of_lt (by omega), List.drop_set_of_lt (by omega)]

theorem triLoop_limit {vertices : List (V F)} {count : Nat} {clockwise : Bool} {begin : BitVec 16} {limit : Nat} :
    ∀ {fuel : Nat} {s s' : Tri}, s.indices ≤ limit → triLoop A vertices count clockwise begin limit fuel s = .ok s' →
      s'.indices ≤ limit ∧ s'.out.drop limit = s.out.drop limit ∧ s'.out.length = s.out.length := by
  intro fuel
  induction fuel with
  | zero => intro s s' _ h; cases h
  | succ fuel ih =>
    intro s s' hs h
    unfold triLoop at h
    split at h
    · obtain ⟨qa, -, h⟩ := bind_inv h
      obtain ⟨qb, -, h⟩ := bind_inv h
      obtain ⟨qc, -, h⟩ := bind_inv h
      obtain ⟨ear, -, h⟩ := bind_inv h
      split at h
      · obtain ⟨t, ht, h⟩ := bind_inv h
        unfold cut at ht
        obtain ⟨u, hu, ht⟩ := bind_inv ht
        have hl := of_decide_eq_true (assert_inv hu)
        obtain ⟨out, ho, ht⟩ := bind_inv ht
        obtain ⟨query, -, ht⟩ := bind_inv ht
        injection ht with ht
        obtain ⟨l1, l2⟩ := emit_limit hl ho
        subst ht
        obtain ⟨i1, i2, i3⟩ := ih (s := ⟨query, out, s.indices + 3, _, _, _, _, _, 0⟩) hl h
        exact ⟨i1, i2.trans l1, i3.trans l2⟩
      · split at h
        · injection h with h
          subst h
          exact ⟨hs, rfl, rfl⟩
        · exact ih (s := { miss s with iterations := s.iterations + 1 }) hs h
    · injection h with h
      subst h
      exact ⟨hs, rfl, rfl⟩

/-- C184: whatever the polygon, the query list and the limit are, if the function returns, it has written at most `maxIndices` indices, and nothing behind them. -/
theorem C184_limit {vertices : List (V F)} {count queryCount maxIndices n : Nat} {query query' out out' : List (BitVec 16)} {clockwise : Bool} {begin : BitVec 16}
    (h : triangulate A vertices count clockwise query queryCount begin out maxIndices = .ok (n, query', out')) :
    n ≤ maxIndices ∧ out'.drop maxIndices = out.drop maxIndices ∧ out'.length = out.length := by
  unfold triangulate at h
  obtain ⟨_, -, h⟩ := bind_inv h
  obtain ⟨_, -, h⟩ := bind_inv h
  split at h
  · injection h with h
    injection h with h1 h
    injection h with h2 h3
    subst h1 h3
    exact ⟨Nat.zero_le _, rfl, rfl⟩
  · obtain ⟨q, -, h⟩ := bind_inv h
    obtain ⟨s, hs, h⟩ := bind_inv h
    injection h with h
    injection h with h1 h
    injection h with h2 h3
    subst h1 h3
    exact triLoop_limit (s := ⟨q, out, 0, _, 0, 1, 2, 2, 0⟩) (Nat.zero_le _) hs

/-- A limit that is just enough. With a lower one an assertion fails. -/
example : triangulate exact (sampleL.map fin) 6 true (List.replicate 6 0) 6 10 (List.replicate 14 7) 12
    = .ok (12, [0, 3, 3, 4, 5, 5], [10, 11, 12, 14, 15, 10, 13, 14, 10, 10, 12, 13, 7, 7]) ∧
    triangulate exact (sampleL.map fin) 6 true (List.replicate 6 0) 6 10 (List.replicate 14 7) 11 = .error .assertion := by decide +kernel

end Tm.Poly
