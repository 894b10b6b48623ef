import Verif.Poly.Lift

/-!
# Triangulation of polygons

Properties C184-C190. Theorems without assumptions about the arithmetic hold for `float` with every rounding, infinities and NaN.
-/

namespace Tm.Poly
open Spec

variable {F : Type} (A : Arith F)

/-- An L, in clockwise order. -/
def sampleL : List (V ℚ) := [⟨0, 0⟩, ⟨2, 0⟩, ⟨2, 1⟩, ⟨1, 1⟩, ⟨1, 2⟩, ⟨0, 2⟩]

/-- A convex polygon. -/
def sampleConvex : List (V ℚ) := [⟨0, 0⟩, ⟨2, 0⟩, ⟨3, 1⟩, ⟨2, 3⟩, ⟨0, 2⟩]

/-- A triangle with an additional corner in the middle of a side. -/
def sampleFlat : List (V ℚ) := [⟨0, 0⟩, ⟨1, 0⟩, ⟨2, 0⟩, ⟨0, 2⟩]

/-- C184: triangulation ends, stays within the given arrays, and writes at most `count - 2` triangles, whatever the vertices are. -/
theorem C184_inside {vertices : List (V F)} {count queryCount maxIndices : Nat} {query out : List (BitVec 16)} (clockwise : Bool)
    (begin : BitVec 16) (h : Enough count vertices.length query queryCount out maxIndices) :
    ∃ n query' out', triangulate A vertices count clockwise query queryCount begin out maxIndices = .ok (n, query', out') ∧
      3 ∣ n ∧ n ≤ 3 * (count - 2) ∧ query'.length = query.length ∧ out'.length = out.length ∧ out'.drop n = out.drop n := by
  obtain ⟨hv, hq, hq', hm, hm0, ho⟩ := h
  by_cases h3 : 3 ≤ count
  · obtain ⟨query', out', q', ts, e, c, l, ql, o, -, -⟩ := triangulate_eq (A := A) clockwise begin hv hq hq' hm hm0 ho h3
    have cl := c.length
    rw [List.length_map, List.length_range] at cl
    refine ⟨_, query', out', e, ⟨_, rfl⟩, by omega, ql, ?_, ?_⟩
    · rw [o, List.length_append, flat_length, List.length_drop]
      omega
    · rw [o, List.drop_left' (flat_length clockwise begin ts)]
  · refine ⟨0, query, out, ?_, ⟨0, rfl⟩, by omega, rfl, rfl, rfl⟩
    unfold triangulate
    rw [assert_ok (by simpa using hq), assert_ok (by simpa using hm0), ok_bind, ok_bind, if_pos (by omega)]

example : Enough 6 (sampleL.map fin).length (List.replicate 6 0) 6 (List.replicate 20 7) 20 :=
  ⟨by decide, by decide, by decide, by decide, by decide, by decide⟩

example : triangulate exact (sampleL.map fin) 6 true (List.replicate 6 0) 6 10 (List.replicate 14 7) 14
    = .ok (12, [0, 3, 3, 4, 5, 5], [10, 11, 12, 14, 15, 10, 13, 14, 10, 10, 12, 13, 7, 7]) := by decide +kernel

/-- C185: the indices that are written are triangles which can be cut off the polygon one after the other. (Triangles of anticlockwise
polygons are written in the opposite order.) -/
theorem C185_cuts {vertices : List (V F)} {count queryCount maxIndices : Nat} {query out : List (BitVec 16)} (clockwise : Bool)
    (begin : BitVec 16) (h : Enough count vertices.length query queryCount out maxIndices) (h3 : 3 ≤ count) (h16 : count ≤ 65536)
    {n : Nat} {query' out' : List (BitVec 16)}
    (hr : triangulate A vertices count clockwise query queryCount begin out maxIndices = .ok (n, query', out')) :
    ∃ ts rest, Cuts (List.range count) ts rest ∧ n = 3 * ts.length ∧
      triangles begin (out'.take n) = ts.map fun t => if clockwise then t else (t.1, t.2.2, t.2.1) := by
  obtain ⟨query1, out1, q', ts, e, c, -, o, -, -⟩ :=
    triangulate_nat (A := A) clockwise begin h.vertices h.elements h.queryMem h.indices h.outSome h.outMem h3 h16
  rw [hr] at e
  cases e
  exact ⟨ts, q', c, rfl, o⟩

/-- C185: each triangle has three different corners of the polygon. -/
theorem C185_corners {vertices : List (V F)} {count queryCount maxIndices : Nat} {query out : List (BitVec 16)} (clockwise : Bool)
    (begin : BitVec 16) (h : Enough count vertices.length query queryCount out maxIndices) (h3 : 3 ≤ count) (h16 : count ≤ 65536)
    {n : Nat} {query' out' : List (BitVec 16)}
    (hr : triangulate A vertices count clockwise query queryCount begin out maxIndices = .ok (n, query', out')) :
    ∀ t ∈ triangles begin (out'.take n),
      t.1 < count ∧ t.2.1 < count ∧ t.2.2 < count ∧ t.1 ≠ t.2.1 ∧ t.2.1 ≠ t.2.2 ∧ t.1 ≠ t.2.2 := by
  obtain ⟨ts, rest, c, -, o⟩ := C185_cuts A clockwise begin h h3 h16 hr
  intro t ht
  rw [o] at ht
  obtain ⟨t', ht', rfl⟩ := List.mem_map.1 ht
  have := nodup_range_cuts c ht'
  cases clockwise
  · exact ⟨this.1, this.2.2.1, this.2.1, this.2.2.2.2.2, this.2.2.2.2.1.symm, this.2.2.2.1⟩
  · exact this

/-- C185: no corner is cut off twice. -/
theorem C185_once {vertices : List (V F)} {count queryCount maxIndices : Nat} {query out : List (BitVec 16)} (clockwise : Bool)
    (begin : BitVec 16) (h : Enough count vertices.length query queryCount out maxIndices) (h3 : 3 ≤ count) (h16 : count ≤ 65536)
    {n : Nat} {query' out' : List (BitVec 16)}
    (hr : triangulate A vertices count clockwise query queryCount begin out maxIndices = .ok (n, query', out')) :
    ((triangles begin (out'.take n)).map fun t => if clockwise then t.2.1 else t.2.2).Nodup := by
  obtain ⟨ts, rest, c, -, o⟩ := C185_cuts A clockwise begin h h3 h16 hr
  have := (List.nodup_append.1 (c.perm.nodup_iff.1 List.nodup_range)).1
  rw [o, List.map_map]
  cases clockwise <;> exact this

example : Cuts (List.range 4) [(0, 1, 2), (2, 3, 0)] [2, 0] :=
  .cut (.refl _) (.cut ⟨1, rfl⟩ (.none (.refl _)))

/-- C186: when `count - 2` triangles were written, their areas add up to the area of the polygon, wherever its corners are. -/
theorem C186_area {vertices : List (V F)} {count queryCount maxIndices : Nat} {query out : List (BitVec 16)} (clockwise : Bool)
    (begin : BitVec 16) (h : Enough count vertices.length query queryCount out maxIndices) (h3 : 3 ≤ count) (h16 : count ≤ 65536)
    {query' out' : List (BitVec 16)}
    (hr : triangulate A vertices count clockwise query queryCount begin out maxIndices = .ok (3 * (count - 2), query', out'))
    {R : Type} [CommRing R] (pos : Nat → V R) :
    ((triangles begin (out'.take (3 * (count - 2)))).map fun t => cross (pos t.1) (pos t.2.1) (pos t.2.2)).sum
      = if clockwise then area2 ((List.range count).map pos) else -area2 ((List.range count).map pos) := by
  obtain ⟨ts, rest, c, e, o⟩ := C185_cuts A clockwise begin h h3 h16 hr
  have cl := c.length
  rw [List.length_range] at cl
  have s := c.sum (fun x y => cross0 (pos x) (pos y)) (fun x y => by unfold cross0; ring)
  rw [sum_two (fun x y => cross0 (pos x) (pos y)) (fun x y => by unfold cross0; ring) (show rest.length = 2 by omega), add_zero, ← area_map] at s
  simp only [triSum] at s
  rw [o, s, List.map_map]
  cases clockwise
  · simp only [Bool.false_eq_true, if_false]
    clear s o e cl c hr
    induction ts with
    | nil => simp
    | cons t ts ih =>
      rw [List.map_cons, List.sum_cons, ih, List.map_cons, List.sum_cons, neg_add]
      congr 1
      simp only [Function.comp_apply, cross]
      ring
  · rfl

/-- The sides of a triangle in the opposite order are the opposite sides. -/
theorem count_turned (ts : List (Nat × Nat × Nat)) (u v : Nat) :
    ((ts.map fun t => (t.1, t.2.2, t.2.1)).flatMap triSides).count (u, v) = (ts.flatMap triSides).count (v, u) := by
  induction ts with
  | nil => rfl
  | cons t ts ih =>
    rw [List.map_cons, List.flatMap_cons, List.flatMap_cons, List.count_append, List.count_append, ih]
    congr 1
    simp only [triSides, List.count_cons, List.count_nil, beq_iff_eq, Prod.mk.injEq]
    simp only [and_comm]
    omega

/-- C186: when `count - 2` triangles were written, the sides of the triangles are the sides of the polygon, once each, and sides inside
of it, as often in one direction as in the other. (For anticlockwise polygons in the opposite direction.) -/
theorem C186_sides {vertices : List (V F)} {count queryCount maxIndices : Nat} {query out : List (BitVec 16)} (clockwise : Bool)
    (begin : BitVec 16) (h : Enough count vertices.length query queryCount out maxIndices) (h3 : 3 ≤ count) (h16 : count ≤ 65536)
    {query' out' : List (BitVec 16)}
    (hr : triangulate A vertices count clockwise query queryCount begin out maxIndices = .ok (3 * (count - 2), query', out')) (u v : Nat) :
    (((triangles begin (out'.take (3 * (count - 2)))).flatMap triSides).count (u, v) : ℤ)
        - ((triangles begin (out'.take (3 * (count - 2)))).flatMap triSides).count (v, u)
      = if clockwise then ((sides (List.range count)).count (u, v) - (sides (List.range count)).count (v, u) : ℤ)
        else (sides (List.range count)).count (v, u) - (sides (List.range count)).count (u, v) := by
  obtain ⟨ts, rest, c, e, o⟩ := C185_cuts A clockwise begin h h3 h16 hr
  have cl := c.length
  rw [List.length_range] at cl
  have hf : ∀ x y : Nat, (if (x, y) = (u, v) then (1 : ℤ) else 0) - (if (x, y) = (v, u) then 1 else 0)
      = -((if (y, x) = (u, v) then (1 : ℤ) else 0) - (if (y, x) = (v, u) then 1 else 0)) := by
    intro x y
    have e1 : ((x, y) = (u, v)) = ((y, x) = (v, u)) := by simp only [Prod.mk.injEq, and_comm]
    have e2 : ((x, y) = (v, u)) = ((y, x) = (u, v)) := by simp only [Prod.mk.injEq, and_comm]
    simp only [e1, e2]
    ring
  have s := c.sum (fun x y => (if (x, y) = (u, v) then (1 : ℤ) else 0) - (if (x, y) = (v, u) then 1 else 0)) hf
  rw [sum_two _ hf (show rest.length = 2 by omega), add_zero, count_flat, count_sum] at s
  rw [o]
  cases clockwise
  · simp only [Bool.false_eq_true, if_false]
    rw [count_turned, count_turned]
    linarith
  · simp only [if_true, List.map_id']
    exact s.symm

example : ∃ query' out', triangulate exact (sampleL.map fin) 6 true (List.replicate 6 0) 6 10 (List.replicate 14 7) 14
    = .ok (3 * (6 - 2), query', out') :=
  ⟨[0, 3, 3, 4, 5, 5], [10, 11, 12, 14, 15, 10, 13, 14, 10, 10, 12, 13, 7, 7], by decide +kernel⟩

/-- C187: triangles are written in clockwise order (or have no area), if the coordinates are whole numbers up to 1024 and the arithmetic
is exact for whole numbers up to 2^24. (`float`, which has two zeros: `C187_float`.) -/
theorem C187_clockwise {ι : ℤ → F} (hA : ExactInts A ι (2 ^ 24)) {v : List (V ℤ)} (hb : ∀ p ∈ v, |p.x| ≤ 1024 ∧ |p.y| ≤ 1024)
    {queryCount maxIndices : Nat} {query out : List (BitVec 16)} (clockwise : Bool)
    (begin : BitVec 16) (h : Enough v.length v.length query queryCount out maxIndices) (h3 : 3 ≤ v.length) (h16 : v.length ≤ 65536)
    {n : Nat} {query' out' : List (BitVec 16)}
    (hr : triangulate A (v.map fun p => ⟨ι p.x, ι p.y⟩) v.length clockwise query queryCount begin out maxIndices = .ok (n, query', out'))
    {t : Nat × Nat × Nat} (ht : t ∈ triangles begin (out'.take n)) {p q r : V ℤ} (hp : v[t.1]? = some p) (hq : v[t.2.1]? = some q)
    (hr' : v[t.2.2]? = some r) : 0 ≤ cross p q r ∧ (clockwise = false → 0 < cross p q r) := by
  obtain ⟨query1, out1, q', ts, e, c, -, o, ear, -⟩ :=
    triangulate_nat (A := A) clockwise begin (vertices := v.map (ints ι)) (by rw [List.length_map]) h.elements h.queryMem h.indices h.outSome
      h.outMem h3 h16
  rw [show (v.map fun p => (⟨ι p.x, ι p.y⟩ : V F)) = v.map (ints ι) from rfl] at hr
  rw [hr] at e
  cases e
  rw [o] at ht
  obtain ⟨t', ht', rfl⟩ := List.mem_map.1 ht
  have b := nodup_range_cuts c ht'
  have he := ear t' ht'
  rw [isTriangleEar_eq (by rw [List.length_map]) b.1 b.2.1 b.2.2.1] at he
  simp only [List.getElem_map] at he
  have m : ∀ {i : Nat} (hi : i < v.length), |v[i].x| ≤ 1024 ∧ |v[i].y| ≤ 1024 := fun hi => hb _ (List.getElem_mem hi)
  rw [ints_clockwise hA (by norm_num) (m b.1) (m b.2.1) (m b.2.2.1)] at he
  have k : decide (0 ≤ cross v[t'.1] v[t'.2.1] v[t'.2.2]) = clockwise := by
    by_contra hk
    rw [if_pos (by simpa using hk)] at he
    cases he
  cases clockwise
  · simp only [turn, Bool.false_eq_true, if_false] at hp hq hr'
    rw [List.getElem?_eq_getElem b.1, Option.some.injEq] at hp
    rw [List.getElem?_eq_getElem b.2.2.1, Option.some.injEq] at hq
    rw [List.getElem?_eq_getElem b.2.1, Option.some.injEq] at hr'
    rw [hp, hq, hr'] at k
    have k' := of_decide_eq_false k
    have e : cross p q r = -cross p r q := by unfold cross; ring
    rw [e]
    exact ⟨by linarith, fun _ => by linarith⟩
  · simp only [turn, if_true] at hp hq hr'
    rw [List.getElem?_eq_getElem b.1, Option.some.injEq] at hp
    rw [List.getElem?_eq_getElem b.2.1, Option.some.injEq] at hq
    rw [List.getElem?_eq_getElem b.2.2.1, Option.some.injEq] at hr'
    rw [hp, hq, hr'] at k
    exact ⟨of_decide_eq_true k, fun h => absurd h (by decide)⟩

/-- Exact arithmetic is exact for whole numbers. -/
theorem exact_ints (n : ℤ) : ExactInts exact (fun z => .fin z) n :=
  ⟨rfl, fun x y _ _ _ => by rw [exact_add]; push_cast; rfl, fun x y _ _ _ => by rw [exact_sub]; push_cast; rfl,
    fun x y _ _ _ => by rw [exact_mul]; push_cast; rfl, fun x y _ _ => by rw [exact_le]; simp⟩

example : ∀ p ∈ ([⟨0, 0⟩, ⟨1000, 0⟩, ⟨300, 300⟩, ⟨0, 1000⟩] : List (V ℤ)), |p.x| ≤ 1024 ∧ |p.y| ≤ 1024 := by decide

/-- C188: in exact arithmetic a triangle that is written and that has an area contains none of the other corners of the polygon, not even
on its border. -/
theorem C188_empty {v : List (V ℚ)} {queryCount maxIndices : Nat} {query out : List (BitVec 16)} (clockwise : Bool)
    (begin : BitVec 16) (h : Enough v.length v.length query queryCount out maxIndices) (h3 : 3 ≤ v.length) (h16 : v.length ≤ 65536)
    {n : Nat} {query' out' : List (BitVec 16)}
    (hr : triangulate exact (v.map fun p => ⟨.fin p.x, .fin p.y⟩) v.length clockwise query queryCount begin out maxIndices = .ok (n, query', out'))
    {t : Nat × Nat × Nat} (ht : t ∈ triangles begin (out'.take n)) {p q r : V ℚ} (hp : v[t.1]? = some p) (hq : v[t.2.1]? = some q)
    (hr' : v[t.2.2]? = some r) (ha : cross p q r ≠ 0) {i : Nat} {c : V ℚ} (hi : v[i]? = some c) (h1 : i ≠ t.1) (h2 : i ≠ t.2.1)
    (h4 : i ≠ t.2.2) : ¬ InTriangle p q r c := by
  obtain ⟨query1, out1, q', ts, e, cu, -, o, ear, -⟩ :=
    triangulate_nat (A := exact) clockwise begin (vertices := v.map fin) (by rw [List.length_map]) h.elements h.queryMem h.indices h.outSome
      h.outMem h3 h16
  rw [show (v.map fun p => (⟨.fin p.x, .fin p.y⟩ : V X)) = v.map fin from rfl] at hr
  rw [hr] at e
  cases e
  rw [o] at ht
  obtain ⟨t', ht', rfl⟩ := List.mem_map.1 ht
  have b := nodup_range_cuts cu ht'
  have he := ear t' ht'
  rw [isTriangleEar_eq (by rw [List.length_map]) b.1 b.2.1 b.2.2.1] at he
  simp only [List.getElem_map] at he
  have he' : earLoop exact (v.map fin) t'.1 t'.2.1 t'.2.2 (fin v[t'.1]) (fin v[t'.2.1]) (fin v[t'.2.2]) v.length 0 = .ok true := by
    split at he
    · cases he
    · exact he
  have hil : i < v.length := (List.getElem?_eq_some_iff.1 hi).1
  have hc : (v.map fin)[i]? = some (fin c) := by rw [List.getElem?_map, hi]; rfl
  intro hin
  cases clockwise
  · simp only [turn, Bool.false_eq_true, if_false] at hp hq hr' h1 h2 h4
    have k := earLoop_true he' (Nat.zero_le i) (by omega) h1 h4 h2 hc
    rw [List.getElem?_eq_getElem b.1, Option.some.injEq] at hp
    rw [List.getElem?_eq_getElem b.2.2.1, Option.some.injEq] at hq
    rw [List.getElem?_eq_getElem b.2.1, Option.some.injEq] at hr'
    rw [hp, hq, hr'] at k
    obtain ⟨x, y, z, hx, hy, hz, e1, e2, e3⟩ := hin
    rw [inTriangle_inside (by rw [cross_swap]; exact neg_ne_zero.2 ha)
      ⟨x, z, y, hx, hz, hy, by linarith, by linarith, by linarith⟩] at k
    cases k
  · simp only [turn, if_true] at hp hq hr' h1 h2 h4
    have k := earLoop_true he' (Nat.zero_le i) (by omega) h1 h2 h4 hc
    rw [List.getElem?_eq_getElem b.1, Option.some.injEq] at hp
    rw [List.getElem?_eq_getElem b.2.1, Option.some.injEq] at hq
    rw [List.getElem?_eq_getElem b.2.2.1, Option.some.injEq] at hr'
    rw [hp, hq, hr', inTriangle_inside ha hin] at k
    cases k

example : InTriangle ⟨0, 0⟩ ⟨2, 0⟩ ⟨0, 2⟩ ⟨1, 1⟩ := ⟨0, 1 / 2, 1 / 2, by norm_num, by norm_num, by norm_num, by norm_num, by norm_num, by norm_num⟩

/-- C189: in exact arithmetic strictly convex polygons are triangulated completely. Missing are polygons that are not convex; those with
three corners on a line are not triangulated completely, see `C189_not_flat`. -/
theorem C189_convex_partial {v : List (V ℚ)} {queryCount maxIndices : Nat} {query out : List (BitVec 16)} (clockwise : Bool)
    (begin : BitVec 16) (h : Enough v.length v.length query queryCount out maxIndices) (h3 : 3 ≤ v.length) (h16 : v.length ≤ 65536)
    (hc : Convex clockwise v) :
    ∃ query' out', triangulate exact (v.map fun p => ⟨.fin p.x, .fin p.y⟩) v.length clockwise query queryCount begin out maxIndices
      = .ok (3 * (v.length - 2), query', out') := by
  obtain ⟨query1, out1, q', ts, e, c, l, o, -, m⟩ :=
    triangulate_nat (A := exact) clockwise begin (vertices := v.map fin) (by rw [List.length_map]) h.elements h.queryMem h.indices h.outSome
      h.outMem h3 h16
  have cl := c.length
  rw [List.length_range] at cl
  have l2 : q'.length = 2 := by
    by_contra hne
    obtain ⟨x, y, z, r, h1, h2⟩ := m (by omega)
    obtain ⟨q'', h4, h5⟩ := c.sub
    have b : ∀ w ∈ x :: y :: z :: r, w < v.length := fun w hw =>
      List.mem_range.1 (h4.subset (h5.perm.mem_iff.1 (h1.perm.mem_iff.2 hw)))
    exact convex_ear hc (b x (by simp)) (b y (by simp)) (b z (by simp)) (cyclic h4 (h5.symm.trans h1)) h2
  refine ⟨query1, out1, ?_⟩
  rw [show v.length - 2 = ts.length by omega]
  exact e

theorem sampleConvex_convex : Convex true sampleConvex := by
  intro i j k p q r hij hjk hi hj hk
  have l : k < 5 := (List.getElem?_eq_some_iff.1 hk).1
  have a : ∀ k < 5, ∀ j < k, ∀ i < j, ∀ p ∈ sampleConvex[i]?, ∀ q ∈ sampleConvex[j]?, ∀ r ∈ sampleConvex[k]?, 0 < cross p q r := by
    decide +kernel
  exact a k l j hjk i hij p hi q hj r hk

example : Convex true sampleConvex := sampleConvex_convex

/-- C189 does not hold for a triangle with an additional corner in the middle of a side: only one triangle is written, and it has no
area. (The corner is cut off with the flat triangle, and afterwards it is on the border of the triangle that is left. All numbers that
are computed are exact as `float`.) -/
theorem C189_not_flat :
    area2 sampleFlat = 4 ∧ ∃ query', triangulate exact (sampleFlat.map fun p => ⟨.fin p.x, .fin p.y⟩) 4 true (List.replicate 4 0) 4 0
      (List.replicate 12 9) 12 = .ok (3, query', [0, 1, 2, 9, 9, 9, 9, 9, 9, 9, 9, 9]) := by
  exact ⟨by decide +kernel, [0, 2, 3, 3], by decide +kernel⟩

/-- C190: `isPolygonClockwise` is true exactly if the area of the polygon is not negative, if the coordinates are whole numbers so small
that no sum is rounded. (`float`, which has two zeros: `C190_float`.) -/
theorem C190_sign {ι : ℤ → F} (hA : ExactInts A ι (2 ^ 24)) {v : List (V ℤ)} {m : ℤ} (hm : 0 ≤ m) (hb : ∀ p ∈ v, |p.x| ≤ m ∧ |p.y| ≤ m)
    (hs : 2 * (m * m) * v.length ≤ 2 ^ 24) (hm' : m ≤ 2 ^ 24) :
    isPolygonClockwise A (v.map fun p => ⟨ι p.x, ι p.y⟩) v.length = .ok (decide (0 ≤ area2 v)) :=
  isPolygonClockwise_ints hA hm v hb hs hm'

example : isPolygonClockwise exact ((([⟨0, 0⟩, ⟨0, 2⟩, ⟨2, 0⟩] : List (V ℤ)).map fun p => ⟨.fin p.x, .fin p.y⟩)) 3 = .ok false := by decide +kernel

/-- C190: it ends and reads only the vertices, in every arithmetic. -/
theorem C190_inside {vertices : List (V F)} {count : Nat} (h : count ≤ vertices.length) :
    ∃ r, isPolygonClockwise A vertices count = .ok r := by
  unfold isPolygonClockwise
  obtain ⟨r, hr⟩ := sumLoop_total (A := A) vertices count (count - 1) 0 (A.lit 0) (by omega) (by omega)
  rw [hr, ok_bind]
  exact ⟨_, rfl⟩

end Tm.Poly
