import Verif.Poly.Props
import Verif.Bez.IeeeProps

/-!
# C187 and C190 for `float`

`C187_clockwise` and `C190_sign` are about arithmetics that give the same value for the same whole number. `float` does not: it has two
zeros, and `0 * -3` is the negative one. Here the same is proved for IEEE 754 binary32, where a coordinate that is 0 may be either zero.
-/

namespace Tm.Poly

open Util Spec
open Bez (ieee fle_is lit_is single_nat)

/-- The vertices of an array of `float`s are these points of whole numbers. -/
def Corners (vertices : List (V Dbl.Float)) (v : List (V ℤ)) : Prop :=
  List.Forall₂ (fun a p => Is a.x (p.x : ℚ) ∧ Is a.y (p.y : ℚ)) vertices v

theorem single_int {z : ℤ} (h : |z| ≤ 2 ^ 24) : Dbl.Single |(z : ℚ)| := by
  have h1 : z.natAbs ≤ 2 ^ 24 := by
    have : ((z.natAbs : ℕ) : ℤ) ≤ 2 ^ 24 := by rw [Int.natCast_natAbs]; exact h
    exact_mod_cast this
  have h2 := single_nat h1
  rwa [Nat.cast_natAbs, Int.cast_abs] at h2

theorem add_int {a b : Dbl.Float} {x y : ℤ} (ha : Is a (x : ℚ)) (hb : Is b (y : ℚ)) (h : |x + y| ≤ 2 ^ 24) :
    Is (fadd a b) ((x + y : ℤ) : ℚ) := by
  obtain ⟨s, e⟩ := fadd_is ha hb
  rw [e, ← Int.cast_add]
  exact rounded_exact (single_int h)

theorem sub_int {a b : Dbl.Float} {x y : ℤ} (ha : Is a (x : ℚ)) (hb : Is b (y : ℚ)) (h : |x - y| ≤ 2 ^ 24) :
    Is (fsub a b) ((x - y : ℤ) : ℚ) := by
  obtain ⟨s, e⟩ := fsub_is ha hb
  rw [e, ← Int.cast_sub]
  exact rounded_exact (single_int h)

theorem mul_int {a b : Dbl.Float} {x y : ℤ} (ha : Is a (x : ℚ)) (hb : Is b (y : ℚ)) (h : |x * y| ≤ 2 ^ 24) :
    Is (fmul a b) ((x * y : ℤ) : ℚ) := by
  obtain ⟨s, e⟩ := fmul_is ha hb
  rw [e, ← Int.cast_mul]
  exact rounded_exact (single_int h)

theorem sign_int {a : Dbl.Float} {x : ℤ} (ha : Is a (x : ℚ)) : ieee.le (ieee.lit 0) a = decide (0 ≤ x) := by
  have h := fle_is (lit_is (x := 0) (by rw [abs_zero]; exact single_zero)) ha
  show fle (ieee.lit 0) a = _
  rw [Bool.eq_iff_iff, h, decide_eq_true_iff, Int.cast_nonneg_iff]

theorem Corners.get {vertices : List (V Dbl.Float)} {v : List (V ℤ)} (h : Corners vertices v) {i : Nat} {p : V ℤ} (hp : v[i]? = some p) :
    ∃ a, vertices[i]? = some a ∧ Is a.x (p.x : ℚ) ∧ Is a.y (p.y : ℚ) := by
  unfold Corners at h
  induction h generalizing i with
  | nil => simp at hp
  | cons hab _ ih =>
    cases i with
    | zero =>
      simp only [List.getElem?_cons_zero, Option.some.injEq] at hp
      subst hp
      exact ⟨_, rfl, hab⟩
    | succ i =>
      rw [List.getElem?_cons_succ] at hp ⊢
      exact ih hp

theorem float_clockwise {a b c : V Dbl.Float} {p q r : V ℤ} (ha : Is a.x (p.x : ℚ) ∧ Is a.y (p.y : ℚ))
    (hb : Is b.x (q.x : ℚ) ∧ Is b.y (q.y : ℚ)) (hc : Is c.x (r.x : ℚ) ∧ Is c.y (r.y : ℚ)) (hp : |p.x| ≤ 1024 ∧ |p.y| ≤ 1024)
    (hq : |q.x| ≤ 1024 ∧ |q.y| ≤ 1024) (hr : |r.x| ≤ 1024 ∧ |r.y| ≤ 1024) :
    isTriangleClockwise ieee a b c = decide (0 ≤ cross p q r) := by
  have d : ∀ {a b : Dbl.Float} {x y : ℤ}, Is a (x : ℚ) → Is b (y : ℚ) → |x| ≤ 1024 → |y| ≤ 1024 →
      Is (fsub a b) ((x - y : ℤ) : ℚ) ∧ |x - y| ≤ 2048 := by
    intro a b x y ha hb hx hy
    have := abs_sub x y
    exact ⟨sub_int ha hb (by linarith), by linarith⟩
  have m : ∀ {a b : Dbl.Float} {x y : ℤ}, Is a (x : ℚ) → Is b (y : ℚ) → |x| ≤ 2048 → |y| ≤ 2048 →
      Is (fmul a b) ((x * y : ℤ) : ℚ) ∧ |x * y| ≤ 4194304 := by
    intro a b x y ha hb hx hy
    have : |x * y| ≤ 4194304 := by
      rw [abs_mul]
      have := mul_le_mul hx hy (abs_nonneg _) (by norm_num)
      linarith
    exact ⟨mul_int ha hb (by linarith), this⟩
  obtain ⟨e1, b1⟩ := d hb.1 ha.1 hq.1 hp.1
  obtain ⟨e2, b2⟩ := d hb.2 ha.2 hq.2 hp.2
  obtain ⟨e3, b3⟩ := d hc.1 ha.1 hr.1 hp.1
  obtain ⟨e4, b4⟩ := d hc.2 ha.2 hr.2 hp.2
  obtain ⟨e5, b5⟩ := m e1 e4 b1 b4
  obtain ⟨e6, b6⟩ := m e2 e3 b2 b3
  have := abs_sub ((q.x - p.x) * (r.y - p.y)) ((q.y - p.y) * (r.x - p.x))
  exact sign_int (sub_int e5 e6 (by linarith))

/-- C187 for `float`: with whole numbers of up to 1024 as coordinates every triangle that is written is clockwise or degenerate, and with
counterclockwise input it is not degenerate. -/
theorem C187_float {vertices : List (V Dbl.Float)} {v : List (V ℤ)} (hv : Corners vertices v)
    (hb : ∀ p ∈ v, |p.x| ≤ 1024 ∧ |p.y| ≤ 1024) {queryCount maxIndices : Nat} {query out : List (BitVec 16)} (clockwise : Bool)
    (begin : BitVec 16) (h : Enough v.length v.length query queryCount out maxIndices) (h3 : 3 ≤ v.length) (h16 : v.length ≤ 65536)
    {n : Nat} {query' out' : List (BitVec 16)}
    (hr : triangulate ieee vertices v.length clockwise query queryCount begin out maxIndices = .ok (n, query', out'))
    {t : Nat × Nat × Nat} (ht : t ∈ triangles begin (out'.take n)) {p q r : V ℤ} (hp : v[t.1]? = some p) (hq : v[t.2.1]? = some q)
    (hr' : v[t.2.2]? = some r) : 0 ≤ cross p q r ∧ (clockwise = false → 0 < cross p q r) := by
  have hl : vertices.length = v.length := List.Forall₂.length_eq hv
  obtain ⟨query1, out1, q', ts, e, c, -, o, ear, -⟩ :=
    triangulate_nat (A := ieee) clockwise begin (vertices := vertices) hl.ge h.elements h.queryMem h.indices h.outSome h.outMem h3 h16
  rw [hr] at e
  cases e
  rw [o] at ht
  obtain ⟨t', ht', rfl⟩ := List.mem_map.1 ht
  have b := nodup_range_cuts c ht'
  have he := ear t' ht'
  rw [isTriangleEar_eq hl.ge b.1 b.2.1 b.2.2.1] at he
  have m : ∀ {i : Nat} (hi : i < v.length), |v[i].x| ≤ 1024 ∧ |v[i].y| ≤ 1024 := fun hi => hb _ (List.getElem_mem hi)
  have g : ∀ {i : Nat} (hi : i < v.length), Is (vertices[i]'(by omega)).x (v[i].x : ℚ) ∧ Is (vertices[i]'(by omega)).y (v[i].y : ℚ) := by
    intro i hi
    obtain ⟨a, h1, h2⟩ := hv.get (List.getElem?_eq_getElem hi)
    rw [List.getElem?_eq_getElem (by omega), Option.some.injEq] at h1
    rw [h1]
    exact h2
  rw [float_clockwise (g b.1) (g b.2.1) (g b.2.2.1) (m b.1) (m b.2.1) (m b.2.2.1)] at he
  have k : decide (0 ≤ cross v[t'.1] v[t'.2.1] v[t'.2.2]) = clockwise := by
    by_contra hk
    rw [if_pos (by simpa using hk)] at he
    cases he
  cases clockwise
  · simp only [turn, Bool.false_eq_true, if_false] at hp hq hr'
    rw [List.getElem?_eq_getElem b.1, Option.some.injEq] at hp
    rw [List.getElem?_eq_getElem b.2.2.1, Option.some.injEq] at hq
    rw [List.getElem?_eq_getElem b.2.1, Option.some.injEq] at hr'
    rw [hp, hq, hr'] at k
    have k' := of_decide_eq_false k
    have e : cross p q r = -cross p r q := by unfold cross; ring
    exact ⟨by omega, fun _ => by omega⟩
  · simp only [turn, if_true] at hp hq hr'
    rw [List.getElem?_eq_getElem b.1, Option.some.injEq] at hp
    rw [List.getElem?_eq_getElem b.2.1, Option.some.injEq] at hq
    rw [List.getElem?_eq_getElem b.2.2.1, Option.some.injEq] at hr'
    rw [hp, hq, hr'] at k
    exact ⟨of_decide_eq_true k, fun h => by cases h⟩

/-- A square with a side of 1000: two triangles are written. -/
example : ∃ query' out', triangulate ieee [⟨(false, .fin 0), (false, .fin 0)⟩, ⟨(true, .fin 1000), (false, .fin 0)⟩,
      ⟨(true, .fin 1000), (true, .fin 1000)⟩, ⟨(true, .fin 0), (true, .fin 1000)⟩] 4 true (List.replicate 4 0) 4 0 (List.replicate 6 9) 6
    = .ok (6, query', out') ∧ triangles 0 out' = [(0, 1, 2), (2, 3, 0)] :=
  ⟨[0, 2, 3, 3], [0, 1, 2, 2, 3, 0], by decide +kernel, by decide +kernel⟩

/-- C189 does not hold for `float` either: the triangle with an additional corner in the middle of a side, as in `C189_not_flat`. -/
theorem C189_not_flat_float :
    area2 sampleFlat = 4 ∧ ∃ query', triangulate ieee (sampleFlat.map fun p => ⟨ieee.lit p.x, ieee.lit p.y⟩) 4 true (List.replicate 4 0) 4 0
      (List.replicate 12 9) 12 = .ok (3, query', [0, 1, 2, 9, 9, 9, 9, 9, 9, 9, 9, 9]) := by
  exact ⟨by decide +kernel, [0, 2, 3, 3], by decide +kernel⟩

theorem sumLoop_float {m : ℤ} (hm : 0 ≤ m) {vertices : List (V Dbl.Float)} {v : List (V ℤ)} (hv : Corners vertices v)
    (pre suf : List (V ℤ)) (hvs : v = pre ++ suf) (last : Nat) (l : V ℤ) (hl : v[last]? = some l) (hb : ∀ p ∈ v, |p.x| ≤ m ∧ |p.y| ≤ m)
    (s : ℤ) (sum : Dbl.Float) (hsum : Is sum (s : ℚ)) (hs : |s| + 2 * (m * m) * suf.length ≤ 2 ^ 24) :
    ∃ r, sumLoop ieee vertices suf.length last pre.length sum = .ok r ∧ Is r ((s + chain l suf : ℤ) : ℚ) := by
  induction suf generalizing pre last l s sum with
  | nil => exact ⟨sum, rfl, by simpa [chain] using hsum⟩
  | cons w suf ih =>
    have hw : v[pre.length]? = some w := by rw [hvs, List.getElem?_append_right le_rfl, Nat.sub_self]; rfl
    have bl := hb l (List.mem_of_getElem? hl)
    have bv := hb w (List.mem_of_getElem? hw)
    have p : ∀ {x y : ℤ}, |x| ≤ m → |y| ≤ m → |x * y| ≤ m * m := by
      intro x y hx hy
      rw [abs_mul]
      exact mul_le_mul hx hy (abs_nonneg _) hm
    have p1 := p bl.1 bv.2
    have p2 := p bl.2 bv.1
    have mm : 0 ≤ m * m := mul_nonneg hm hm
    simp only [List.length_cons, Nat.cast_add, Nat.cast_one] at hs
    have hn : 0 ≤ 2 * (m * m) * (suf.length : ℤ) := by positivity
    have hs' : |s| + (2 * (m * m) * suf.length + 2 * (m * m)) ≤ 2 ^ 24 := by linarith
    have s0 := abs_nonneg s
    have d := abs_sub (l.x * w.y) (l.y * w.x)
    have t := abs_add_le s (l.x * w.y - l.y * w.x)
    obtain ⟨a, ha, a1, a2⟩ := hv.get hl
    obtain ⟨b, hb', b1, b2⟩ := hv.get hw
    rw [List.length_cons, sumLoop]
    have e1 : rd vertices last = .ok a := by
      unfold rd
      rw [ha]
    have e2 : rd vertices pre.length = .ok b := by
      unfold rd
      rw [hb']
    rw [e1, e2, ok_bind, ok_bind]
    have i1 := mul_int a1 b2 (by linarith)
    have i2 := mul_int a2 b1 (by linarith)
    have i3 := sub_int i1 i2 (by linarith)
    have i4 := add_int hsum i3 (by linarith)
    have := ih (pre ++ [w]) (by rw [hvs]; simp) pre.length w hw (s + (l.x * w.y - l.y * w.x)) _ i4 (by linarith)
    rw [List.length_append, List.length_singleton] at this
    have ec : s + chain l (w :: suf) = s + (l.x * w.y - l.y * w.x) + chain w suf := by
      show s + (cross0 l w + chain w suf) = _
      unfold cross0
      ring
    rw [ec]
    exact this

/-- C190 for `float`: with whole numbers as coordinates, so small that the area is at most 2^24, the result tells the orientation. -/
theorem C190_float {vertices : List (V Dbl.Float)} {v : List (V ℤ)} (hv : Corners vertices v) {m : ℤ} (hm : 0 ≤ m)
    (hb : ∀ p ∈ v, |p.x| ≤ m ∧ |p.y| ≤ m) (hs : 2 * (m * m) * v.length ≤ 2 ^ 24) :
    isPolygonClockwise ieee vertices v.length = .ok (decide (0 ≤ area2 v)) := by
  have z : Is (ieee.lit 0) ((0 : ℤ) : ℚ) := by
    rw [Int.cast_zero]
    exact lit_is (by rw [abs_zero]; exact single_zero)
  unfold isPolygonClockwise
  rcases Nat.eq_zero_or_pos v.length with h0 | h0
  · obtain rfl : v = [] := List.length_eq_zero_iff.1 h0
    rw [List.length_nil, sumLoop, ok_bind, sign_int z]
    rfl
  · obtain ⟨v', l, rfl, hl⟩ := snoc h0
    obtain ⟨r, e, hr⟩ := sumLoop_float hm hv [] (v' ++ [l]) rfl ((v' ++ [l]).length - 1) l (by simp) hb 0 _ z (by simpa using hs)
    rw [List.length_nil] at e
    rw [e, ok_bind, sign_int hr, zero_add, chain_area]

/-- A triangle with a negative zero, and products that are negative zeros: the orientation is found all the same. -/
example : Corners [⟨(true, .fin 0), (false, .fin 0)⟩, ⟨(false, .fin 0), (false, .fin 2)⟩, ⟨(true, .fin 3), (false, .fin 0)⟩]
    [⟨0, 0⟩, ⟨0, 2⟩, ⟨-3, 0⟩] ∧
    isPolygonClockwise ieee [⟨(true, .fin 0), (false, .fin 0)⟩, ⟨(false, .fin 0), (false, .fin 2)⟩, ⟨(true, .fin 3), (false, .fin 0)⟩] 3 = .ok true ∧
    fmul (false, .fin 0) (true, .fin 3) = (true, .fin 0) := by
  refine ⟨?_, by decide +kernel, by decide +kernel⟩
  have s : ∀ k : ℕ, k ≤ 2 ^ 24 → Dbl.Single (k : ℚ) := fun k hk => single_nat hk
  have s2 : Dbl.Single 2 := by simpa using s 2 (by norm_num)
  have s3 : Dbl.Single 3 := by simpa using s 3 (by norm_num)
  exact .cons ⟨⟨_, _, rfl, single_zero, by simp⟩, ⟨_, _, rfl, single_zero, by simp⟩⟩
    (.cons ⟨⟨_, _, rfl, single_zero, by simp⟩, ⟨_, _, rfl, s2, by simp⟩⟩
      (.cons ⟨⟨_, _, rfl, s3, by simp⟩, ⟨_, _, rfl, single_zero, by simp⟩⟩ .nil))

end Tm.Poly
