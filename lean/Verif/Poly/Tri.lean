import Verif.Poly.Cuts

/-! # The loop of the triangulation -/

namespace Tm.Poly
open Spec

variable {F : Type} {A : Arith F}

theorem rd_ok {α : Type} {l : List α} {i : Nat} (h : i < l.length) : rd l i = .ok l[i] := by
  unfold rd
  rw [List.getElem?_eq_getElem h]

theorem assert_ok {c : Bool} (h : c = true) : assert c = .ok () := by rw [h]; rfl

theorem fillQuery_eq (m l r : List (BitVec 16)) :
    fillQuery m.length l.length (l ++ m ++ r) = .ok (l ++ (List.range' l.length m.length).map (BitVec.ofNat 16) ++ r) := by
  induction m generalizing l with
  | nil => simp [fillQuery]
  | cons x m ih =>
    have := ih (l ++ [BitVec.ofNat 16 l.length])
    simp only [List.length_append, List.length_singleton, List.append_assoc, List.singleton_append] at this
    have e : wr (l ++ x :: m ++ r) l.length (BitVec.ofNat 16 l.length) = .ok (l ++ (BitVec.ofNat 16 l.length :: m ++ r)) := by
      unfold wr
      rw [if_pos (by simp), List.append_assoc, List.set_append_right _ _ (by omega), Nat.sub_self, List.cons_append, List.set_cons_zero,
        List.cons_append]
    rw [List.length_cons, fillQuery, e, ok_bind, this]
    simp [List.range'_succ]

theorem snoc {α : Type} {q : List α} (h : 0 < q.length) : ∃ q' y, q = q' ++ [y] ∧ q'.length + 1 = q.length :=
  have h' : q ≠ [] := List.ne_nil_of_length_pos h
  ⟨q.dropLast, q.getLast h', (List.dropLast_append_getLast h').symm, by simp; omega⟩

theorem earLoop_total {vertices : List (V F)} (a b c : Nat) (va vb vc : V F) (n i : Nat) (h : i + n ≤ vertices.length) :
    ∃ r, earLoop A vertices a b c va vb vc n i = .ok r := by
  induction n generalizing i with
  | zero => exact ⟨_, rfl⟩
  | succ n ih =>
    unfold earLoop
    split
    · exact ih _ (by omega)
    · rw [rd_ok (by omega), ok_bind]
      split
      · exact ⟨_, rfl⟩
      · exact ih _ (by omega)

theorem isTriangleEar_eq {a b c : Nat} {vertices : List (V F)} {count : Nat} {cw : Bool} (hc : count ≤ vertices.length)
    (ha : a < count) (hb : b < count) (hc' : c < count) :
    isTriangleEar A a b c vertices count cw
      = if isTriangleClockwise A vertices[a] vertices[b] vertices[c] != cw then .ok false
        else earLoop A vertices a b c vertices[a] vertices[b] vertices[c] count 0 := by
  unfold isTriangleEar
  rw [assert_ok (by simpa using ha), assert_ok (by simpa using hb), assert_ok (by simpa using hc'), ok_bind, ok_bind, ok_bind,
    rd_ok (by omega), rd_ok (by omega), rd_ok (by omega), ok_bind, ok_bind, ok_bind]

theorem isTriangleEar_total {a b c : Nat} {vertices : List (V F)} {count : Nat} {cw : Bool} (hc : count ≤ vertices.length)
    (ha : a < count) (hb : b < count) (hc' : c < count) : ∃ r, isTriangleEar A a b c vertices count cw = .ok r := by
  rw [isTriangleEar_eq hc ha hb hc']
  split
  · exact ⟨_, rfl⟩
  · exact earLoop_total _ _ _ _ _ _ _ _ (by omega)

/-- Three positions in a row. -/
def Pos (size a b c : Nat) : Prop :=
  (b = a + 1 ∧ c = a + 2 ∧ c < size) ∨ (a = size - 2 ∧ b = size - 1 ∧ c = 0) ∨ (a = size - 1 ∧ b = 0 ∧ c = 1)

theorem row {α : Type} {q : List α} {a b c : Nat} (h3 : 2 < q.length) (h : Pos q.length a b c) :
    ∃ (x y z : α) (r : List α), q[a]? = some x ∧ q[b]? = some y ∧ q[c]? = some z ∧
      q ~r (x :: y :: z :: r) ∧ q.eraseIdx b ~r (x :: z :: r) := by
  unfold Pos at h
  rcases h with ⟨rfl, rfl, h⟩ | ⟨rfl, rfl, rfl⟩ | ⟨rfl, rfl, rfl⟩
  · obtain ⟨l, x, y, z, r, rfl, rfl⟩ : ∃ l x y z r, q = l ++ x :: y :: z :: r ∧ l.length = a :=
      ⟨q.take a, q[a], q[a + 1], q[a + 2], q.drop (a + 3), by simp, by simp; omega⟩
    refine ⟨x, y, z, r ++ l, by simp, by simp, by simp, ⟨l.length, by rw [List.rotate_append_length_eq]; simp⟩, ⟨l.length, ?_⟩⟩
    rw [List.eraseIdx_append_of_length_le (by omega), Nat.add_sub_cancel_left, List.rotate_append_length_eq]
    simp
  · obtain ⟨x, y, z, m, rfl⟩ : ∃ x y z m, q = (z :: m) ++ [x, y] := by
      obtain ⟨q', y, rfl, h'⟩ := snoc (q := q) (by omega)
      obtain ⟨q', x, rfl, h''⟩ := snoc (q := q') (by omega)
      match q' with
      | [] => simp at h3
      | z :: m => exact ⟨x, y, z, m, by simp⟩
    have e1 : (z :: m ++ [x, y]).length = m.length + 3 := by simp
    have e2 : m.length + 3 - 1 = (z :: m).length + 1 := by simp
    have e3 : m.length + 3 - 2 = (z :: m).length := by simp
    rw [e1, e2, e3]
    refine ⟨x, y, z, m, by simp, by simp, by simp, ⟨(z :: m).length, List.rotate_append_length_eq _ _⟩, ⟨(z :: m).length, ?_⟩⟩
    rw [List.eraseIdx_append_of_length_le (by omega), Nat.add_sub_cancel_left]
    exact List.rotate_append_length_eq _ _
  · obtain ⟨x, y, z, m, rfl⟩ : ∃ x y z m, q = (y :: z :: m) ++ [x] := by
      obtain ⟨q', x, rfl, h'⟩ := snoc (q := q) (by omega)
      match q' with
      | [] | [_] => simp at h3
      | y :: z :: m => exact ⟨x, y, z, m, rfl⟩
    have e1 : (y :: z :: m ++ [x]).length = m.length + 3 := by simp
    have e2 : m.length + 3 - 1 = (y :: z :: m).length := by simp
    rw [e1, e2]
    refine ⟨x, y, z, m, by simp, by simp, by simp, ⟨(y :: z :: m).length, List.rotate_append_length_eq _ _⟩, ⟨(z :: m).length, ?_⟩⟩
    exact List.rotate_append_length_eq (z :: m) [x]

theorem afterCut_pos {size a : Nat} (h : 2 < size) (ha : a ≤ size) : Pos size (afterCut size a).1 (afterCut size a).2.1 (afterCut size a).2.2 := by
  unfold afterCut Pos
  dsimp only
  split <;> split <;> (try split) <;> dsimp only <;> omega

theorem afterMiss_pos {size a b c : Nat} (h : 2 < size) (hp : Pos size a b c) :
    Pos size (afterMiss size b c).1 (afterMiss size b c).2.1 (afterMiss size b c).2.2 := by
  unfold afterMiss
  unfold Pos at *
  split <;> dsimp only <;> omega

theorem moveDown_eq {query : List (BitVec 16)} {b size : Nat} (hb : b ≤ size) (h : size + 1 ≤ query.length) :
    ∃ q', moveDown query b size = .ok q' ∧ q'.length = query.length ∧ q'.take size = (query.take (size + 1)).eraseIdx b := by
  unfold moveDown
  rw [if_pos ⟨hb, h⟩]
  refine ⟨_, rfl, ?_, ?_⟩
  · simp; omega
  · rw [List.eraseIdx_eq_take_drop_succ, List.take_append_of_le_length (by simp; omega), List.take_of_length_le (by simp; omega),
      List.take_take, List.drop_take]
    congr 2 <;> omega

/-- The indices of a triangle, in the order of the output. -/
def indicesOf (clockwise : Bool) (begin : BitVec 16) (t : BitVec 16 × BitVec 16 × BitVec 16) : List (BitVec 16) :=
  if clockwise then [t.1 + begin, t.2.1 + begin, t.2.2 + begin] else [t.1 + begin, t.2.2 + begin, t.2.1 + begin]

theorem emit_eq {clockwise : Bool} {begin qa qb qc : BitVec 16} {out : List (BitVec 16)} {n : Nat} (h : n + 3 ≤ out.length) :
    emit clockwise begin qa qb qc out n = .ok (out.take n ++ indicesOf clockwise begin (qa, qb, qc) ++ out.drop (n + 3)) := by
  obtain ⟨l, x, y, z, r, rfl, rfl⟩ : ∃ l x y z r, out = l ++ x :: y :: z :: r ∧ l.length = n :=
    ⟨out.take n, out[n], out[n + 1], out[n + 2], out.drop (n + 3), by simp, by simp; omega⟩
  unfold emit wr
  rw [if_pos (by simp), ok_bind, if_pos (by simp), ok_bind, if_pos (by simp)]
  congr 1
  rw [List.set_append_right _ _ (by omega), List.set_append_right _ _ (by omega), List.set_append_right _ _ (by omega)]
  cases clockwise <;> simp [indicesOf]

/-- What holds at the begin of each iteration: `q` is the polygon that is left. -/
structure Inv (count maxIndices : Nat) (s : Tri) (q : List (BitVec 16)) : Prop where
  query : s.query.take s.size = q
  length : q.length = s.size
  bound : ∀ x ∈ q, x.toNat < count
  pos : 2 < s.size → Pos s.size s.a s.b s.c
  cur : s.current = s.c
  room : s.indices + 3 * (s.size - 2) ≤ maxIndices
  two : 2 ≤ s.size

theorem get_query {count maxIndices : Nat} {s : Tri} {q : List (BitVec 16)} (h : Inv count maxIndices s q) {i : Nat} {x : BitVec 16}
    (hx : q[i]? = some x) : rd s.query i = .ok x := by
  rw [← h.query, List.getElem?_take] at hx
  unfold rd
  split at hx
  · rw [hx]
  · cases hx

theorem cut_eq {count maxIndices : Nat} {s : Tri} {q : List (BitVec 16)} (h : Inv count maxIndices s q) (h2 : 2 < s.size)
    (ho : maxIndices ≤ s.out.length) (cw : Bool) (begin : BitVec 16) {x y z : BitVec 16} {r : List (BitVec 16)}
    (hr : q.eraseIdx s.b ~r (x :: z :: r)) (hb : s.b < s.size) (ha : s.a < s.size) :
    ∃ s', cut cw begin maxIndices s x y z = .ok s' ∧ Inv count maxIndices s' (q.eraseIdx s.b) ∧ s'.size + 1 = s.size ∧
      s'.iterations = 0 ∧ s'.indices = s.indices + 3 ∧ s'.query.length = s.query.length ∧
      s'.out = s.out.take s.indices ++ indicesOf cw begin (x, y, z) ++ s.out.drop (s.indices + 3) := by
  have hl : s.size ≤ s.query.length := by
    have := h.length
    rw [← h.query, List.length_take] at this
    omega
  have hroom := h.room
  obtain ⟨q', e1, e2, e3⟩ := moveDown_eq (query := s.query) (b := s.b) (size := s.size - 1) (by omega) (by omega)
  unfold cut
  rw [assert_ok (by simp; omega), ok_bind, emit_eq (by omega), ok_bind, e1, ok_bind]
  refine ⟨_, rfl, ⟨?_, ?_, ?_, ?_, rfl, ?_, ?_⟩, ?_, rfl, rfl, e2, rfl⟩
  · dsimp only
    rw [e3, Nat.sub_add_cancel (by omega), h.query]
  · dsimp only
    rw [List.length_eraseIdx_of_lt (by rw [h.length]; exact hb), h.length]
  · exact fun v hv => h.bound v (List.mem_of_mem_eraseIdx hv)
  · exact fun h' => afterCut_pos h' (by show s.a ≤ s.size - 1; omega)
  · dsimp only; omega
  · dsimp only; omega
  · dsimp only; omega

theorem miss_inv {count maxIndices : Nat} {s : Tri} {q : List (BitVec 16)} (h : Inv count maxIndices s q) (n : Nat) :
    Inv count maxIndices { miss s with iterations := n } q :=
  ⟨h.query, h.length, h.bound, fun h' => by
    have := afterMiss_pos h' (h.pos h')
    unfold miss
    dsimp only
    rw [h.cur]
    exact this, rfl, h.room, h.two⟩

/-- The loop ends; what it wrote are triangles that were cut off, and each of them was an ear. If it gave up, some triple is no ear. -/
theorem triLoop_eq {vertices : List (V F)} {count maxIndices : Nat} (cw : Bool) (begin : BitVec 16) (hc : count ≤ vertices.length)
    (fuel : Nat) (s : Tri) (q : List (BitVec 16)) (h : Inv count maxIndices s q) (ho : maxIndices ≤ s.out.length)
    (hs : s.size ≤ count) (hi : s.iterations ≤ 2 * s.size + 1) (hf : s.size * (2 * count + 4) < fuel + s.iterations) :
    ∃ s' q' ts, triLoop A vertices count cw begin maxIndices fuel s = .ok s' ∧ Cuts q ts q' ∧ q'.length = s'.size ∧ 2 ≤ s'.size ∧
      s'.indices = s.indices + 3 * ts.length ∧ s'.query.length = s.query.length ∧
      s'.out = s.out.take s.indices ++ ts.flatMap (indicesOf cw begin) ++ s.out.drop s'.indices ∧
      (∀ t ∈ ts, isTriangleEar A t.1.toNat t.2.1.toNat t.2.2.toNat vertices count cw = .ok true) ∧
      (2 < s'.size → ∃ x y z r, q' ~r (x :: y :: z :: r) ∧
        isTriangleEar A x.toNat y.toNat z.toNat vertices count cw = .ok false) := by
  induction fuel generalizing s q with
  | zero =>
    exfalso
    have := Nat.mul_le_mul_left s.size (show 4 ≤ 2 * count + 4 by omega)
    have := h.two
    omega
  | succ fuel ih =>
    unfold triLoop
    by_cases h2 : 2 < s.size
    · have hl := h.length
      obtain ⟨x, y, z, r, hx, hy, hz, r1, r2⟩ := row (q := q) (by omega) (by rw [hl]; exact h.pos h2)
      have ha : s.a < s.size := by rw [← hl]; exact (List.getElem?_eq_some_iff.1 hx).1
      have hb : s.b < s.size := by rw [← hl]; exact (List.getElem?_eq_some_iff.1 hy).1
      have bx := h.bound x (List.mem_of_getElem? hx)
      have bY := h.bound y (List.mem_of_getElem? hy)
      have bz := h.bound z (List.mem_of_getElem? hz)
      rw [if_pos h2, get_query h hx, get_query h hy, get_query h hz, ok_bind, ok_bind, ok_bind]
      obtain ⟨e, he⟩ := isTriangleEar_total (A := A) (cw := cw) hc bx bY bz
      rw [he, ok_bind]
      cases e with
      | true =>
        rw [if_pos rfl]
        obtain ⟨s1, e1, i1, z1, it, n1, l1, o1⟩ := cut_eq h h2 ho cw begin (y := y) r2 hb ha
        rw [e1, ok_bind]
        have hroom := h.room
        have lo : s1.out.length = s.out.length := by rw [o1]; cases cw <;> simp [indicesOf] <;> omega
        obtain ⟨s', q', ts, e2, c2, l2, t2, n2, ql2, o2, ear2, m2⟩ := ih s1 _ i1 (by omega) (by omega) (by omega) (by
          rw [it, Nat.add_zero]
          have : s.size * (2 * count + 4) = s1.size * (2 * count + 4) + (2 * count + 4) := by rw [← z1]; ring
          omega)
        refine ⟨s', q', (x, y, z) :: ts, e2, .cut r1 (c2.rotate r2.symm), l2, t2, by simp only [List.length_cons]; omega, by omega, ?_, ?_, m2⟩
        · rw [o2, o1, n1]
          have l3 : (indicesOf cw begin (x, y, z)).length = 3 := by cases cw <;> rfl
          have l4 : (s.out.take s.indices).length = s.indices := by simp; omega
          have e3 : (s.out.take s.indices ++ indicesOf cw begin (x, y, z) ++ s.out.drop (s.indices + 3)).take (s.indices + 3)
              = s.out.take s.indices ++ indicesOf cw begin (x, y, z) :=
            List.take_left' (by rw [List.length_append, l3, l4])
          rw [e3, List.drop_append, List.drop_eq_nil_of_le (by rw [List.length_append, l3, l4]; omega), List.nil_append,
            List.drop_drop, List.length_append, l3, l4, List.flatMap_cons]
          simp only [List.append_assoc]
          congr 4
          omega
        · intro t ht
          rcases List.mem_cons.1 ht with rfl | ht
          · exact he
          · exact ear2 t ht
      | false =>
        rw [if_neg (by decide)]
        by_cases h3 : s.iterations > 2 * s.size
        · rw [if_pos h3]
          refine ⟨_, q, [], rfl, .none (.refl _), hl, h.two, rfl, rfl, ?_, by simp, fun _ => ⟨x, y, z, r, r1, he⟩⟩
          simp [miss]
        · rw [if_neg h3]
          exact ih _ q (miss_inv h _) ho hs (by show _ ≤ 2 * s.size + 1; dsimp only; omega) (by
            show s.size * _ < fuel + (s.iterations + 1); omega)
    · rw [if_neg h2]
      refine ⟨s, q, [], rfl, .none (.refl _), h.length, h.two, rfl, rfl, by simp, by simp, fun h' => absurd h' h2⟩

/-- What the function does. -/
theorem triangulate_eq {vertices : List (V F)} {count queryCount maxIndices : Nat} (cw : Bool) (begin : BitVec 16)
    {query out : List (BitVec 16)} (hv : count ≤ vertices.length) (hq : count ≤ queryCount) (hq' : queryCount ≤ query.length)
    (hm : 3 * (count - 2) ≤ maxIndices) (hm0 : maxIndices ≠ 0) (ho : maxIndices ≤ out.length) (h3 : 3 ≤ count) :
    ∃ query' out' q' ts, triangulate A vertices count cw query queryCount begin out maxIndices = .ok (3 * ts.length, query', out') ∧
      Cuts ((List.range count).map (BitVec.ofNat 16)) ts q' ∧ 2 ≤ q'.length ∧ query'.length = query.length ∧
      out' = ts.flatMap (indicesOf cw begin) ++ out.drop (3 * ts.length) ∧
      (∀ t ∈ ts, isTriangleEar A t.1.toNat t.2.1.toNat t.2.2.toNat vertices count cw = .ok true) ∧
      (2 < q'.length → ∃ x y z r, q' ~r (x :: y :: z :: r) ∧
        isTriangleEar A x.toNat y.toNat z.toNat vertices count cw = .ok false) := by
  unfold triangulate
  rw [assert_ok (by simpa using hq), assert_ok (by simpa using hm0), ok_bind, ok_bind, if_neg (by omega)]
  have e : (if count < queryCount then count else queryCount) = count := by split <;> omega
  dsimp only
  rw [e]
  have f := fillQuery_eq (query.take count) [] (query.drop count)
  simp only [List.length_nil, List.nil_append, List.length_take, Nat.min_eq_left (show count ≤ query.length by omega),
    List.take_append_drop, ← List.range_eq_range'] at f
  rw [f, ok_bind]
  obtain ⟨s', q', ts, e2, c2, l2, t2, n2, ql2, o2, ear2, m2⟩ := triLoop_eq (A := A) cw begin hv (count * (2 * count + 4) + 1)
    ⟨(List.range count).map (BitVec.ofNat 16) ++ query.drop count, out, 0, count, 0, 1, 2, 2, 0⟩ _
    (⟨rfl, by simp, by
      intro x hx
      dsimp only at hx
      rw [List.take_left' (by simp)] at hx
      obtain ⟨i, hi, rfl⟩ := List.mem_map.1 hx
      rw [List.mem_range] at hi
      rw [BitVec.toNat_ofNat]
      exact lt_of_le_of_lt (Nat.mod_le _ _) hi, fun h => .inl ⟨rfl, rfl, h⟩, rfl, by dsimp only; omega, by dsimp only; omega⟩ :
      Inv count maxIndices _ _) ho le_rfl (by dsimp only; omega) (by dsimp only; omega)
  dsimp only at c2
  rw [List.take_left' (by simp)] at c2
  rw [e2, ok_bind]
  refine ⟨s'.query, s'.out, q', ts, ?_, c2, by omega, ?_, ?_, ear2, fun h => m2 (by omega)⟩
  · rw [n2, Nat.zero_add]
  · rw [ql2]; simp; omega
  · rw [o2, n2]; simp

end Tm.Poly
