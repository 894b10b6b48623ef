import Verif.Poly.Exact

/-! # From the output to triangles -/

namespace Tm.Poly
open Spec

variable {F : Type} {A : Arith F}

theorem triangles_eq (cw : Bool) (begin : BitVec 16) (ts : List (BitVec 16 × BitVec 16 × BitVec 16)) :
    triangles begin (ts.flatMap (indicesOf cw begin))
      = ts.map fun t => if cw then (t.1.toNat, t.2.1.toNat, t.2.2.toNat) else (t.1.toNat, t.2.2.toNat, t.2.1.toNat) := by
  induction ts with
  | nil => rfl
  | cons t ts ih =>
    rw [List.flatMap_cons, List.map_cons, ← ih]
    cases cw <;> simp [indicesOf, triangles] <;> omega

theorem flat_length (cw : Bool) (begin : BitVec 16) (ts : List (BitVec 16 × BitVec 16 × BitVec 16)) :
    (ts.flatMap (indicesOf cw begin)).length = 3 * ts.length := by
  induction ts with
  | nil => rfl
  | cons t ts ih =>
    rw [List.flatMap_cons, List.length_append, ih, List.length_cons]
    cases cw <;> simp [indicesOf] <;> omega

theorem range_map {count : Nat} (h : count ≤ 65536) :
    ((List.range count).map (BitVec.ofNat 16)).map BitVec.toNat = List.range count := by
  rw [List.map_map]
  conv_rhs => rw [← List.map_id (List.range count)]
  apply List.map_congr_left
  intro i hi
  rw [List.mem_range] at hi
  simp only [Function.comp_apply, BitVec.toNat_ofNat, id_eq]
  omega

/-- A triangle of an anticlockwise polygon is written in the opposite order. -/
def turn (cw : Bool) (t : Nat × Nat × Nat) : Nat × Nat × Nat := if cw then t else (t.1, t.2.2, t.2.1)

/-- What the function does, in terms of vertex numbers. -/
theorem triangulate_nat {vertices : List (V F)} {count queryCount maxIndices : Nat} (cw : Bool) (begin : BitVec 16)
    {query out : List (BitVec 16)} (hv : count ≤ vertices.length) (hq : count ≤ queryCount) (hq' : queryCount ≤ query.length)
    (hm : 3 * (count - 2) ≤ maxIndices) (hm0 : maxIndices ≠ 0) (ho : maxIndices ≤ out.length) (h3 : 3 ≤ count) (h16 : count ≤ 65536) :
    ∃ query' out' q' ts, triangulate A vertices count cw query queryCount begin out maxIndices = .ok (3 * ts.length, query', out') ∧
      Cuts (List.range count) ts q' ∧ 2 ≤ q'.length ∧ triangles begin (out'.take (3 * ts.length)) = ts.map (turn cw) ∧
      (∀ t ∈ ts, isTriangleEar A t.1 t.2.1 t.2.2 vertices count cw = .ok true) ∧
      (2 < q'.length → ∃ x y z r, q' ~r (x :: y :: z :: r) ∧ isTriangleEar A x y z vertices count cw = .ok false) := by
  obtain ⟨query', out', q', ts, e, c, l, -, o, ear, m⟩ := triangulate_eq (A := A) cw begin hv hq hq' hm hm0 ho h3
  refine ⟨query', out', q'.map BitVec.toNat, ts.map fun t => (t.1.toNat, t.2.1.toNat, t.2.2.toNat), by rw [List.length_map]; exact e, ?_, by simpa using l,
    ?_, ?_, ?_⟩
  · have := c.map BitVec.toNat
    rwa [range_map h16] at this
  · rw [o, List.length_map, List.take_left' (flat_length cw begin ts), triangles_eq, List.map_map]
    cases cw <;> rfl
  · intro t ht
    obtain ⟨t', ht', rfl⟩ := List.mem_map.1 ht
    exact ear t' ht'
  · intro h
    obtain ⟨x, y, z, r, h1, h2⟩ := m (by simpa using h)
    exact ⟨_, _, _, _, h1.map BitVec.toNat, h2⟩

theorem nodup_range_cuts {count : Nat} {ts q} (h : Cuts (List.range count) ts q) {t} (ht : t ∈ ts) :
    t.1 < count ∧ t.2.1 < count ∧ t.2.2 < count ∧ t.1 ≠ t.2.1 ∧ t.2.1 ≠ t.2.2 ∧ t.1 ≠ t.2.2 := by
  obtain ⟨q', r, h1, h2⟩ := h.mem ht
  have nd := h2.perm.nodup_iff.1 (h1.nodup (List.nodup_range))
  have b := (h.sound (P := (· < count)) (fun x hx => List.mem_range.1 hx)).1 t ht
  simp only [List.nodup_cons, List.mem_cons, not_or] at nd
  exact ⟨b.1, b.2.1, b.2.2, nd.1.1, nd.2.1.1, nd.1.2.1⟩

/-- Three corners in a row of a part of the polygon are in cyclic order. -/
theorem cyclic {count : Nat} {q r : List Nat} {x y z : Nat} (hq : q.Sublist (List.range count)) (h : q ~r (x :: y :: z :: r)) :
    x < y ∧ y < z ∨ y < z ∧ z < x ∨ z < x ∧ x < y := by
  have s : q.Pairwise (· < ·) := (List.pairwise_lt_range).sublist hq
  obtain ⟨n, hn⟩ := h.symm
  obtain ⟨q', h1, h2⟩ : ∃ u v, x :: y :: z :: r = u ++ v ∧ q = v ++ u := by
    rw [← List.rotate_mod] at hn
    rw [List.rotate_eq_drop_append_take (Nat.mod_lt _ (by simp)).le] at hn
    exact ⟨_, _, (List.take_append_drop _ _).symm, hn.symm⟩
  obtain ⟨h2, rfl⟩ := h2
  match q', h2 with
  | [], h2 =>
    rw [List.nil_append] at h2
    rw [← h2] at s
    simp only [List.append_nil, List.pairwise_cons, List.mem_cons] at s
    exact .inl ⟨s.1 y (by simp), s.2.1 z (by simp)⟩
  | [_], h2 =>
    simp only [List.cons_append, List.nil_append, List.cons.injEq] at h2
    obtain ⟨rfl, h2⟩ := h2
    rw [← h2] at s
    simp only [List.cons_append, List.pairwise_cons, List.mem_cons, List.mem_append] at s
    exact .inr (.inl ⟨s.1 z (by simp), s.2.1 x (by simp)⟩)
  | [_, _], h2 =>
    simp only [List.cons_append, List.nil_append, List.cons.injEq] at h2
    obtain ⟨rfl, rfl, h2⟩ := h2
    rw [← h2] at s
    simp only [List.cons_append, List.pairwise_cons, List.mem_cons, List.mem_append] at s
    refine .inr (.inr ⟨s.1 x (by simp), ?_⟩)
    have := (List.pairwise_append.1 s.2).2.1
    simp only [List.pairwise_cons, List.mem_cons] at this
    exact this.1 y (by simp)
  | _ :: _ :: _ :: u, h2 =>
    simp only [List.cons_append, List.cons.injEq] at h2
    obtain ⟨rfl, rfl, rfl, h2⟩ := h2
    have := (List.pairwise_append.1 s).2.1
    simp only [List.pairwise_cons, List.mem_cons] at this
    exact .inl ⟨this.1 y (by simp), this.2.1 z (by simp)⟩

theorem cross_rotate (a b c : V ℚ) : cross b c a = cross a b c := by unfold cross; ring

theorem cross_swap (a b c : V ℚ) : cross a c b = -cross a b c := by unfold cross; ring

/-- In a convex polygon any three corners in cyclic order are in clockwise order. -/
theorem Convex.cyclic {cw : Bool} {v : List (V ℚ)} (h : Convex cw v) {x y z : Nat} {p q r : V ℚ} (hx : v[x]? = some p)
    (hy : v[y]? = some q) (hz : v[z]? = some r) (hc : x < y ∧ y < z ∨ y < z ∧ z < x ∨ z < x ∧ x < y) :
    if cw then 0 < cross p q r else cross p q r < 0 := by
  rcases hc with hc | hc | hc
  · exact h x y z p q r hc.1 hc.2 hx hy hz
  · rw [← cross_rotate p q r]
    exact h y z x q r p hc.1 hc.2 hy hz hx
  · rw [← cross_rotate p q r, ← cross_rotate q r p]
    exact h z x y r p q hc.1 hc.2 hz hx hy

theorem convex_ear {cw : Bool} {v : List (V ℚ)} (h : Convex cw v) {x y z : Nat} (hx : x < v.length) (hy : y < v.length)
    (hz : z < v.length) (hc : x < y ∧ y < z ∨ y < z ∧ z < x ∨ z < x ∧ x < y) :
    isTriangleEar exact x y z (v.map fin) v.length cw ≠ .ok false := by
  intro he
  have g : ∀ {i : Nat} (hi : i < v.length), v[i]? = some v[i] := fun hi => List.getElem?_eq_getElem hi
  have k := Convex.cyclic h (g hx) (g hy) (g hz) hc
  rw [isTriangleEar_eq (by simp) hx hy hz] at he
  simp only [List.getElem_map] at he
  rw [exact_clockwise, if_neg] at he
  · obtain ⟨j, w, hj, nx, ny, nz, hw, hp⟩ := earLoop_false he
    have hj' : j < v.length := by omega
    rw [List.getElem?_map, g hj', Option.map_some, Option.some.injEq] at hw
    subst hw
    rw [outside] at hp
    · cases hp
    · have e1 : ∀ a b c : V ℚ, cross a c b = -cross a b c := cross_swap
      have c1 : (x < j ∧ j < y ∨ j < y ∧ y < x ∨ y < x ∧ x < j) ∨ (y < j ∧ j < z ∨ j < z ∧ z < y ∨ z < y ∧ y < j)
          ∨ (z < j ∧ j < x ∨ j < x ∧ x < z ∨ x < z ∧ z < j) := by omega
      cases cw
      · refine .inr ⟨by simpa using k, ?_⟩
        rcases c1 with c | c | c
        · have := Convex.cyclic h (g hx) (g hj') (g hy) c
          simp only [Bool.false_eq_true, if_false] at this
          refine .inr (.inl ?_)
          rw [e1]
          linarith
        · have := Convex.cyclic h (g hy) (g hj') (g hz) c
          simp only [Bool.false_eq_true, if_false] at this
          refine .inr (.inr ?_)
          have e : cross v[j] v[y] v[z] = -cross v[y] v[j] v[z] := by unfold cross; ring
          rw [e]
          linarith
        · have := Convex.cyclic h (g hz) (g hj') (g hx) c
          simp only [Bool.false_eq_true, if_false] at this
          refine .inl ?_
          have e : cross v[x] v[j] v[z] = -cross v[z] v[j] v[x] := by unfold cross; ring
          rw [e]
          linarith
      · refine .inl ⟨by simpa using k, ?_⟩
        rcases c1 with c | c | c
        · have := Convex.cyclic h (g hx) (g hj') (g hy) c
          simp only [if_true] at this
          refine .inr (.inl ?_)
          rw [e1]
          linarith
        · have := Convex.cyclic h (g hy) (g hj') (g hz) c
          simp only [if_true] at this
          refine .inr (.inr ?_)
          have e : cross v[j] v[y] v[z] = -cross v[y] v[j] v[z] := by unfold cross; ring
          rw [e]
          linarith
        · have := Convex.cyclic h (g hz) (g hj') (g hx) c
          simp only [if_true] at this
          refine .inl ?_
          have e : cross v[x] v[j] v[z] = -cross v[z] v[j] v[x] := by unfold cross; ring
          rw [e]
          linarith
  · cases cw
    · have k' : ¬ 0 ≤ cross v[x] v[y] v[z] := by simpa using k
      rw [decide_eq_false k']
      decide
    · have k' : 0 < cross v[x] v[y] v[z] := by simpa using k
      rw [decide_eq_true k'.le]
      decide

/-! ## Counting sides -/

theorem count_sum {α : Type} [DecidableEq α] (l : List (α × α)) (u v : α) :
    (l.map fun e => (if (e.1, e.2) = (u, v) then (1 : ℤ) else 0) - (if (e.1, e.2) = (v, u) then 1 else 0)).sum
      = (l.count (u, v) : ℤ) - l.count (v, u) := by
  induction l with
  | nil => rfl
  | cons e l ih =>
    rw [List.map_cons, List.sum_cons, ih, List.count_cons, List.count_cons]
    push_cast
    simp only [beq_iff_eq, Prod.mk.eta]
    split <;> split <;> ring

theorem count_flat {α β : Type} [DecidableEq α] (ts : List β) (f : β → List (α × α)) (u v : α) :
    (ts.map fun t => ((f t).map fun e => (if (e.1, e.2) = (u, v) then (1 : ℤ) else 0) - (if (e.1, e.2) = (v, u) then 1 else 0)).sum).sum
      = ((ts.flatMap f).count (u, v) : ℤ) - (ts.flatMap f).count (v, u) := by
  induction ts with
  | nil => rfl
  | cons t ts ih =>
    rw [List.map_cons, List.sum_cons, ih, List.flatMap_cons, List.count_append, List.count_append, count_sum]
    push_cast
    ring

theorem triSum {R : Type} [CommRing R] (pos : Nat → V R) (t : Nat × Nat × Nat) :
    ((triSides t).map fun e => cross0 (pos e.1) (pos e.2)).sum = cross (pos t.1) (pos t.2.1) (pos t.2.2) := by
  simp only [triSides, List.map_cons, List.map_nil, List.sum_cons, List.sum_nil, cross0, cross]
  ring

theorem area_map {R : Type} [CommRing R] (pos : Nat → V R) (p : List Nat) :
    area2 (p.map pos) = ((sides p).map fun e => cross0 (pos e.1) (pos e.2)).sum := by
  unfold area2 sides
  rw [← List.map_rotate, List.zip_map, List.map_map]
  rfl

/-! ## Orientation of the whole polygon -/

theorem sumLoop_total (vertices : List (V F)) (n last i : Nat) (s : F) (h : i + n ≤ vertices.length) (hl : n = 0 ∨ last < vertices.length) :
    ∃ r, sumLoop A vertices n last i s = .ok r := by
  induction n generalizing last i s with
  | zero => exact ⟨_, rfl⟩
  | succ n ih =>
    unfold sumLoop
    rw [rd_ok (by omega), rd_ok (by omega), ok_bind, ok_bind]
    exact ih _ _ _ (by omega) (by omega)

/-- The sum that is computed, without rounding: `last` is the corner in front of the list. -/
def chain (last : V ℤ) : List (V ℤ) → ℤ
  | [] => 0
  | v :: vs => cross0 last v + chain v vs

theorem sumLoop_ints {ι : ℤ → F} {n m : ℤ} (h : ExactInts A ι n) (hm : 0 ≤ m) (hm' : m ≤ n) (vs pre suf : List (V ℤ)) (hvs : vs = pre ++ suf)
    (last : Nat) (l : V ℤ) (hl : vs[last]? = some l) (hb : ∀ v ∈ vs, |v.x| ≤ m ∧ |v.y| ≤ m) (s : ℤ)
    (hs : |s| + 2 * (m * m) * suf.length ≤ n) :
    sumLoop A (vs.map (ints ι)) suf.length last pre.length (ι s) = .ok (ι (s + chain l suf)) ∧ |s + chain l suf| ≤ n := by
  induction suf generalizing pre last l s with
  | nil =>
    simp only [List.length_nil, Nat.cast_zero, mul_zero, add_zero] at hs
    simpa [sumLoop, chain] using hs
  | cons v suf ih =>
    have bl := hb l (List.mem_of_getElem? hl)
    have bv := hb v (by rw [hvs]; simp)
    have p : ∀ {x y : ℤ}, |x| ≤ m → |y| ≤ m → |x * y| ≤ m * m := by
      intro x y hx hy
      rw [abs_mul]
      exact mul_le_mul hx hy (abs_nonneg _) hm
    have p1 := p bl.1 bv.2
    have p2 := p bl.2 bv.1
    have mm : 0 ≤ m * m := mul_nonneg hm hm
    simp only [List.length_cons, Nat.cast_add, Nat.cast_one] at hs
    have hn : 0 ≤ 2 * (m * m) * (suf.length : ℤ) := by positivity
    have hs' : |s| + (2 * (m * m) * suf.length + 2 * (m * m)) ≤ n := by linarith
    have s0 := abs_nonneg s
    have d := abs_sub (l.x * v.y) (l.y * v.x)
    have t := abs_add_le s (l.x * v.y - l.y * v.x)
    rw [List.length_cons, sumLoop]
    have e1 : rd (vs.map (ints ι)) last = .ok (ints ι l) := by
      unfold rd
      rw [List.getElem?_map, hl]
      rfl
    have e2 : rd (vs.map (ints ι)) pre.length = .ok (ints ι v) := by
      unfold rd
      rw [List.getElem?_map, hvs, List.getElem?_append_right le_rfl, Nat.sub_self]
      rfl
    rw [e1, e2, ok_bind, ok_bind]
    unfold ints
    dsimp only
    rw [h.mul _ _ (by linarith [bl.1]) (by linarith [bv.2]) (by linarith), h.mul _ _ (by linarith [bl.2]) (by linarith [bv.1]) (by linarith),
      h.sub _ _ (by linarith) (by linarith) (by linarith), h.add _ _ (by linarith) (by linarith) (by linarith)]
    have := ih (pre ++ [v]) (by rw [hvs]; simp) pre.length v (by rw [hvs, List.getElem?_append_right le_rfl, Nat.sub_self]; rfl)
      (s + (l.x * v.y - l.y * v.x)) (by linarith)
    rw [List.length_append, List.length_singleton] at this
    have ec : s + chain l (v :: suf) = s + (l.x * v.y - l.y * v.x) + chain v suf := by
      show s + (cross0 l v + chain v suf) = _
      unfold cross0
      ring
    rw [ec]
    exact this

theorem chain_zip (l : V ℤ) (vs : List (V ℤ)) (x : V ℤ) : chain l (vs ++ [x]) = (((l :: vs).zip (vs ++ [x])).map fun e => cross0 e.1 e.2).sum := by
  induction vs generalizing l with
  | nil => rfl
  | cons v vs ih =>
    rw [List.cons_append, chain, ih v, List.zip_cons_cons, List.map_cons, List.sum_cons]

theorem chain_area (vs : List (V ℤ)) (l : V ℤ) : chain l (vs ++ [l]) = area2 (vs ++ [l]) := by
  rw [chain_zip]
  unfold area2
  rw [sum_sides_rotated (fun e => cross0 e.1 e.2) (p := vs ++ [l]) (q := l :: vs) ⟨vs.length, by rw [List.rotate_append_length_eq]; rfl⟩]
  unfold sides
  rw [List.rotate_cons_succ, List.rotate_zero]

theorem isPolygonClockwise_ints {ι : ℤ → F} {n m : ℤ} (h : ExactInts A ι n) (hm : 0 ≤ m) (vs : List (V ℤ))
    (hb : ∀ v ∈ vs, |v.x| ≤ m ∧ |v.y| ≤ m) (hn : 2 * (m * m) * vs.length ≤ n) (hm' : m ≤ n) :
    isPolygonClockwise A (vs.map (ints ι)) vs.length = .ok (decide (0 ≤ area2 vs)) := by
  unfold isPolygonClockwise
  rcases Nat.eq_zero_or_pos vs.length with h0 | h0
  · have : vs = [] := List.length_eq_zero_iff.1 h0
    subst this
    have : A.le (ι 0) (ι 0) = true := by rw [h.le _ _ (by rw [abs_zero]; linarith) (by rw [abs_zero]; linarith)]; rfl
    simp [sumLoop, h.zero, this, area2, sides]
  · obtain ⟨us, l, rfl, hl⟩ := snoc h0
    have := sumLoop_ints h hm hm' (us ++ [l]) [] (us ++ [l]) rfl us.length l (by simp) hb 0 (by rw [abs_zero, zero_add]; exact hn)
    have e : (us ++ [l]).length - 1 = us.length := by simp
    rw [List.length_nil, zero_add, chain_area] at this
    rw [e, h.zero, this.1, ok_bind, h.le _ _ (by rw [abs_zero]; linarith) this.2]

end Tm.Poly
