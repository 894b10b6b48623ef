import Verif.Poly.ClipWhole

/-! # Properties of tm_polygon.h (clipping) -/

namespace Tm.Poly
open Spec

variable {F : Type} {A : Arith F}

theorem both_start {ps qs : List (V F)} {a b : Clip F} (ha : Prepared A qs.length ps [] a) (hb : Prepared A ps.length qs [] b) :
    Both A ps qs [] a b := ⟨ha, hb⟩

/-- C196: two polygons are prepared for clipping: both of them go through their corners in order and through the crossings, which are on
the right sides and in order, and each crossing has as neighbor the same crossing of the other polygon. Nothing outside of the memory is
read or written. (Corners may be moved. That the search ends is C197.) -/
theorem C196_prepared (hA : ∀ x y, A.lt x y = true → A.lt y x = false) {ps qs : List (V F)} (hp : ps ≠ []) (hq : qs ≠ [])
    {memA memB : List (CV F)} {maxA maxB : Nat} (ha : ps.length + ps.length * qs.length ≤ maxA) (ha' : maxA ≤ memA.length) (ha16 : maxA ≤ 65536)
    (hb : qs.length + ps.length * qs.length ≤ maxB) (hb' : maxB ≤ memB.length) (hb16 : maxB ≤ 65536) (fuel : Nat) :
    ∃ a b, transform A ps ps.length memA maxA = .ok a ∧ transform A qs qs.length memB maxB = .ok b ∧
      (findIntersections A fuel a b = .error .diverge ∨
        ∃ a' b' ps' qs', ∃ cs : List (Meeting F), findIntersections A fuel a b = .ok (a', b') ∧ ps'.length = ps.length ∧ qs'.length = qs.length ∧
          cs.length ≤ ps.length * qs.length ∧ Prepared A qs.length ps' (cs.map Meeting.onA) a' ∧
          Prepared A ps.length qs' (cs.map Meeting.onB) b') := by
  obtain ⟨a, e1, pa, ca, la⟩ := transform_ok (A := A) qs.length hp (show ps.length ≤ maxA by omega) ha' ha16
  obtain ⟨b, e2, pb, cb, lb⟩ := transform_ok (A := A) ps.length hq (show qs.length ≤ maxB by omega) hb' hb16
  have h0 := List.length_pos_iff.2 hp
  have h1 := List.length_pos_iff.2 hq
  refine ⟨a, b, e1, e2, ?_⟩
  unfold findIntersections
  rw [pa.original, pb.original]
  rcases findLoop_inv hA (n := ps.length) (m := qs.length) fuel (i := 0) (ip := ps.length - 1) (j := 0) (jp := qs.length - 1) (both_start pa pb) rfl rfl
    ⟨by omega, by omega, by omega⟩ ⟨by omega, by omega, by omega⟩ (by simp) (by omega) (by omega) (by omega) (by omega) (by omega) with h | h
  · exact .inl h
  · obtain ⟨a', b', ps', qs', cs, h1, h2, h3, h4, h5, -⟩ := h
    refine .inr ⟨a', b', ps', qs', cs, h1, h3, h4, h5, ?_, ?_⟩
    · rw [← h4]
      exact h2.a
    · rw [← h3]
      exact h2.b

/-- A square. -/
def sampleA : List (V ℚ) := [⟨0, 0⟩, ⟨4, 0⟩, ⟨4, 4⟩, ⟨0, 4⟩]

/-- A square that overlaps it. -/
def sampleB : List (V ℚ) := [⟨2, 2⟩, ⟨6, 2⟩, ⟨6, 6⟩, ⟨2, 6⟩]

/-- Memory for a polygon. -/
def sampleMem (n : Nat) : List (CV X) := List.replicate n ⟨⟨.nan, .nan⟩, 7, 7, true, true, true, 7, .nan⟩

theorem side_four {α : Type} {a b c d : α} {i : Nat} {p q : α} (h : Side [a, b, c, d] i p q) :
    p = d ∧ q = a ∨ p = a ∧ q = b ∨ p = b ∧ q = c ∨ p = c ∧ q = d := by
  obtain ⟨h1, h2⟩ := h
  have hi : i < 4 := (List.getElem?_eq_some_iff.1 h1).1
  obtain rfl | rfl | rfl | rfl : i = 0 ∨ i = 1 ∨ i = 2 ∨ i = 3 := by omega
  all_goals
    simp at h1 h2
    subst h1 h2
    simp

theorem sample_general : General sampleA sampleB := by
  intro i j p q r s x y h1 h2 h
  obtain ⟨x0, x1, y0, y1, ex, ey⟩ := h
  rcases side_four h1 with ⟨rfl, rfl⟩ | ⟨rfl, rfl⟩ | ⟨rfl, rfl⟩ | ⟨rfl, rfl⟩ <;>
    rcases side_four h2 with ⟨rfl, rfl⟩ | ⟨rfl, rfl⟩ | ⟨rfl, rfl⟩ | ⟨rfl, rfl⟩ <;>
    (simp only at ex ey; unfold turn; simp only) <;>
    first
    | (exfalso; linarith)
    | (refine ⟨by norm_num, by norm_num, by norm_num, by linarith, by linarith, by linarith, by linarith⟩)

example : ∃ a b a' b', transform exact (sampleA.map fin) 4 (sampleMem 20) 20 = .ok a ∧ transform exact (sampleB.map fin) 4 (sampleMem 20) 20 = .ok b ∧
    findIntersections exact 21 a b = .ok (a', b') ∧ a'.size = 6 ∧ b'.size = 6 := by
  obtain ⟨a, b, h1, h2, h | ⟨a', b', ps', qs', cs, h3, h4, h5, h6, h7, h8⟩⟩ := C196_prepared (A := exact) exact_asymm (ps := sampleA.map fin)
    (qs := sampleB.map fin) (by simp [sampleA]) (by simp [sampleB]) (memA := sampleMem 20) (memB := sampleMem 20) (maxA := 20) (maxB := 20)
    (by decide) (by decide) (by decide) (by decide) (by decide) (by decide) 21
  · have e1 : transform exact (sampleA.map fin) 4 (sampleMem 20) 20 = .ok a := h1
    have e2 : transform exact (sampleB.map fin) 4 (sampleMem 20) 20 = .ok b := h2
    have : (transform exact (sampleA.map fin) 4 (sampleMem 20) 20 >>= fun a => transform exact (sampleB.map fin) 4 (sampleMem 20) 20 >>= fun b =>
        findIntersections exact 21 a b) = .error .diverge := by
      rw [e1, ok_bind, e2, ok_bind]
      exact h
    exact absurd this (by decide +kernel)
  · have e1 : transform exact (sampleA.map fin) 4 (sampleMem 20) 20 = .ok a := h1
    have e2 : transform exact (sampleB.map fin) 4 (sampleMem 20) 20 = .ok b := h2
    have : (transform exact (sampleA.map fin) 4 (sampleMem 20) 20 >>= fun a => transform exact (sampleB.map fin) 4 (sampleMem 20) 20 >>= fun b =>
        findIntersections exact 21 a b >>= fun r => .ok (r.1.size, r.2.size)) = .ok (6, 6) := by decide +kernel
    rw [e1, ok_bind, e2, ok_bind, h3, ok_bind] at this
    injection this with this
    exact ⟨a, b, a', b', h1, h2, h3, congrArg Prod.fst this, congrArg Prod.snd this⟩

/-- C197, what is proved of it: if sides that have a common point are not parallel and the point is not close to a corner, then the search
ends, no corner is moved, and the crossings are exactly the common points of sides. (Exact arithmetic. Missing: rounding, and other
positions, for which there are counterexamples below.) -/
theorem C197_exact_partial {ps qs : List (V ℚ)} (hp : ps ≠ []) (hq : qs ≠ []) (hg : General ps qs) {memA memB : List (CV X)} {maxA maxB : Nat}
    (ha : ps.length + ps.length * qs.length ≤ maxA) (ha' : maxA ≤ memA.length) (ha16 : maxA ≤ 65536)
    (hb : qs.length + ps.length * qs.length ≤ maxB) (hb' : maxB ≤ memB.length) (hb16 : maxB ≤ 65536) {fuel : Nat}
    (hf : ps.length * (qs.length + 1) < fuel) :
    ∃ a b a' b', ∃ cs : List (Meeting X), transform exact (ps.map fin) ps.length memA maxA = .ok a ∧ transform exact (qs.map fin) qs.length memB maxB = .ok b ∧
      findIntersections exact fuel a b = .ok (a', b') ∧ Prepared exact qs.length (ps.map fin) (cs.map Meeting.onA) a' ∧
      Prepared exact ps.length (qs.map fin) (cs.map Meeting.onB) b' ∧ cs.Nodup ∧ ∀ c, c ∈ cs ↔ Meets ps qs c := by
  have hpm : ps.map fin ≠ [] := by simpa using hp
  have hqm : qs.map fin ≠ [] := by simpa using hq
  obtain ⟨a, e1, pa, ca, la⟩ := transform_ok (A := exact) (mem := memA) (maxClipVertices := maxA) qs.length hpm
    (by rw [List.length_map]; omega) ha' ha16
  obtain ⟨b, e2, pb, cb, lb⟩ := transform_ok (A := exact) (mem := memB) (maxClipVertices := maxB) ps.length hqm
    (by rw [List.length_map]; omega) hb' hb16
  have h0 := List.length_pos_iff.2 hp
  have h1 := List.length_pos_iff.2 hq
  have hB : Both exact (ps.map fin) (qs.map fin) [] a b := ⟨by rw [List.length_map]; exact pa, by rw [List.length_map]; exact pb⟩
  obtain ⟨a', b', cs, e3, hB', hcs, hpw⟩ := findLoop_exact hg fuel (i := 0) (j := 0) hB ⟨by omega, by omega, by omega⟩ ⟨by omega, by omega, by omega⟩
    (by simp) (by omega) (by omega) (by omega) h1 (fun c => by simp [Before]) List.Pairwise.nil (by simpa using hf)
  rw [List.length_map] at e1 e2
  refine ⟨a, b, a', b', cs, e1, e2, ?_, ?_, ?_, ?_, hcs⟩
  · unfold findIntersections
    rw [pa.original, pb.original, List.length_map, List.length_map]
    exact e3
  · have := hB'.a
    rwa [List.length_map] at this
  · have := hB'.b
    rwa [List.length_map] at this
  · exact hpw.imp fun {c d} h e => by
      subst e
      unfold Before at h
      simp only at h
      omega

example : General sampleA sampleB := sample_general

/-- Rounding to 24 significant bits, to the nearest number, and to an even one if there are two of them (without overflow). -/
def single (q : ℚ) : ℚ :=
  if q = 0 then 0
  else
    let n := q.num.natAbs
    let shift : ℤ := 24 - ((Nat.log2 n : ℤ) - Nat.log2 q.den)
    let scale : ℚ := if 0 ≤ shift then (2 ^ shift.toNat : ℕ) else 1 / (2 ^ (-shift).toNat : ℕ)
    let x := |q| * scale
    let unit : ℕ := if x < (2 ^ 24 : ℕ) then 1 else 2
    let y := x / unit
    let f := y.num.natAbs / y.den
    let r := y - f
    let m := if r < 1 / 2 ∨ r = 1 / 2 ∧ f % 2 = 0 then f else f + 1
    (if q < 0 then -1 else 1) * m * unit / scale

/-- `float` without infinities and NaN. -/
def singles : Arith ℚ := ⟨single, fun a b => single (a + b), fun a b => single (a - b), fun a b => single (a * b), fun a b => single (a / b),
  fun a => -a, fun a b => decide (a ≤ b), fun a b => decide (a < b)⟩

/-- A triangle with its last corner on a side of the other one. -/
def hangA : List (V ℚ) := [⟨10002, 10002⟩, ⟨10001, 10002⟩, ⟨10002, 10000⟩]

/-- The other triangle. -/
def hangB : List (V ℚ) := [⟨10004, 10000⟩, ⟨10002, 9998⟩, ⟨10000, 10000⟩]

/-- Memory for them. -/
def hangMem : List (CV ℚ) := List.replicate 12 ⟨⟨0, 0⟩, 0, 0, false, false, false, 0, 0⟩

/-- C197 does not hold for two triangles with coordinates of about 10000, one of which has a corner on a side of the other one: the corner
is moved by less than the distance of two `float` numbers, so it stays where it is, and the search never ends. -/
theorem C197_not_ending : ∃ a b, transform singles hangA 3 hangMem 12 = .ok a ∧ transform singles hangB 3 hangMem 12 = .ok b ∧
    ∀ fuel, findIntersections singles fuel a b = .error .diverge := by
  obtain ⟨a, ha⟩ : ∃ a, transform singles hangA 3 hangMem 12 = .ok a := by
    have : (transform singles hangA 3 hangMem 12).toOption.isSome = true := by decide +kernel
    obtain ⟨a, h⟩ := Option.isSome_iff_exists.1 this
    cases e : transform singles hangA 3 hangMem 12 with
    | error f => rw [e] at h; cases h
    | ok a => exact ⟨a, rfl⟩
  obtain ⟨b, hb⟩ : ∃ b, transform singles hangB 3 hangMem 12 = .ok b := by
    have : (transform singles hangB 3 hangMem 12).toOption.isSome = true := by decide +kernel
    obtain ⟨b, h⟩ := Option.isSome_iff_exists.1 this
    cases e : transform singles hangB 3 hangMem 12 with
    | error f => rw [e] at h; cases h
    | ok a => exact ⟨a, rfl⟩
  refine ⟨a, b, ha, hb, ?_⟩
  have hpair : pair singles a b 0 2 0 2 = .ok (true, a, b) ∧ a.originalSize = 3 ∧ b.originalSize = 3 := by
    have : (transform singles hangA 3 hangMem 12 >>= fun a => transform singles hangB 3 hangMem 12 >>= fun b =>
        .ok (decide (pair singles a b 0 2 0 2 = .ok (true, a, b)) && decide (a.originalSize = 3) && decide (b.originalSize = 3))) = .ok true := by
      decide +kernel
    rw [ha, ok_bind, hb, ok_bind] at this
    injection this with this
    simpa [Bool.and_eq_true, and_assoc] using this
  obtain ⟨hp, oa, ob⟩ := hpair
  have loop : ∀ fuel, findLoop singles fuel a b 0 2 0 2 = .error .diverge := by
    intro fuel
    induction fuel with
    | zero => rfl
    | succ fuel ih =>
      unfold findLoop
      rw [if_pos (by omega), if_pos (by omega), hp, ok_bind, if_pos rfl]
      exact ih
  intro fuel
  unfold findIntersections
  rw [oa, ob]
  exact loop fuel

/-- Small squares that overlap. -/
def smallA : List (V ℚ) := [⟨0, 0⟩, ⟨1 / 1000, 0⟩, ⟨1 / 1000, 1 / 1000⟩, ⟨0, 1 / 1000⟩]

/-- The other one. -/
def smallB : List (V ℚ) := [⟨1 / 2000, 1 / 2000⟩, ⟨3 / 2000, 1 / 2000⟩, ⟨3 / 2000, 3 / 2000⟩, ⟨1 / 2000, 3 / 2000⟩]

/-- C197 does not hold for two overlapping squares with sides of length 1/1000: no crossing is found, because the product of the
directions of two sides is compared with 0.000001 in a way that excludes only this number. -/
theorem C197_not_all : (∃ c, Meets smallA smallB c) ∧
    ∃ a b a' b', transform exact (smallA.map fin) 4 (sampleMem 20) 20 = .ok a ∧ transform exact (smallB.map fin) 4 (sampleMem 20) 20 = .ok b ∧
      findIntersections exact 21 a b = .ok (a', b') ∧ a'.size = 4 ∧ b'.size = 4 := by
  refine ⟨⟨⟨2, 1, _, _, _⟩, ⟨1 / 1000, 0⟩, ⟨1 / 1000, 1 / 1000⟩, ⟨1 / 2000, 1 / 2000⟩, ⟨3 / 2000, 1 / 2000⟩, 1 / 2, 1 / 2, ⟨rfl, rfl⟩, ⟨rfl, rfl⟩,
    ⟨by norm_num, by norm_num, by norm_num, by norm_num, by norm_num, by norm_num⟩, rfl, rfl, rfl⟩, ?_⟩
  have : (transform exact (smallA.map fin) 4 (sampleMem 20) 20 >>= fun a => transform exact (smallB.map fin) 4 (sampleMem 20) 20 >>= fun b =>
      findIntersections exact 21 a b >>= fun r => .ok (r.1.size, r.2.size)) = .ok (4, 4) := by decide +kernel
  cases ha : transform exact (smallA.map fin) 4 (sampleMem 20) 20 with
  | error f => rw [ha] at this; cases this
  | ok a =>
    cases hb : transform exact (smallB.map fin) 4 (sampleMem 20) 20 with
    | error f => rw [ha, ok_bind, hb] at this; cases this
    | ok b =>
      cases hr : findIntersections exact 21 a b with
      | error f => rw [ha, ok_bind, hb, ok_bind, hr] at this; cases this
      | ok r =>
        rw [ha, ok_bind, hb, ok_bind, hr, ok_bind] at this
        injection this with this
        exact ⟨a, b, r.1, r.2, rfl, rfl, hr, congrArg Prod.fst this, congrArg Prod.snd this⟩

/-- C198: on both polygons the crossings become exits and entries in turn. The first crossing after vertex 0 is an exit exactly if vertex
0 is inside of the other polygon (the opposite if a polygon is to be followed backward). -/
theorem C198_alternate {ps qs : List (V F)} {cs : List (Meeting F)} {a b : Clip F} (ha : Prepared A qs.length ps (cs.map Meeting.onA) a)
    (hb : Prepared A ps.length qs (cs.map Meeting.onB) b) {p0 q0 : V F} (hp : ps[0]? = some p0) (hq : qs[0]? = some q0)
    (la : a.size ≤ a.data.length) (lb : b.size ≤ b.data.length) (aBackward bBackward : Bool) :
    ∃ ia ib a' b' ra rb, pointInside A b p0 = .ok ia ∧ pointInside A a q0 = .ok ib ∧ mark A a b aBackward bBackward = .ok (a', b') ∧
      Tour A a.data ps.length (cs.map Meeting.onA) ra ∧ Tour A b.data qs.length (cs.map Meeting.onB) rb ∧
      Marked ps.length ra (ia != aBackward) a a' ∧ Marked qs.length rb (ib != bBackward) b b' := by
  obtain ⟨ra, Ta⟩ := ha.tour
  obtain ⟨rb, Tb⟩ := hb.tour
  have hqs : ∀ (i : Nat) q, qs[i]? = some q → ∃ v : CV F, b.data[i]? = some v ∧ v.pos = q := fun i q hi => by
    obtain ⟨v, h1, h2, -⟩ := hb.corner i q hi
    exact ⟨v, h1, h2⟩
  have hps : ∀ (i : Nat) q, ps[i]? = some q → ∃ v : CV F, a.data[i]? = some v ∧ v.pos = q := fun i q hi => by
    obtain ⟨v, h1, h2, -⟩ := ha.corner i q hi
    exact ⟨v, h1, h2⟩
  obtain ⟨a', b', e, Ma, Mb⟩ := mark_ok ⟨ha, hb⟩ Ta Tb hp hq la lb rfl rfl aBackward bBackward
  exact ⟨_, _, a', b', ra, rb, pointInside_ok hb.original hqs p0, pointInside_ok ha.original hps q0, e, Ta, Tb, Ma, Mb⟩

/-- C198: whether a point is inside of a polygon is decided by the even-odd rule (in exact arithmetic). -/
theorem C198_inside {m : Nat} {ps : List (V ℚ)} {cs : List (Crossing X)} {vs : Clip X} (h : Prepared exact m (ps.map fin) cs vs) (v : V ℚ) :
    ∃ inside, pointInside exact vs (fin v) = .ok inside ∧ Inside ps v inside := by
  refine ⟨_, pointInside_ok h.original (fun i q hi => ?_) (fin v), ?_⟩
  · obtain ⟨w, h1, h2, -⟩ := h.corner i q hi
    exact ⟨w, h1, h2⟩
  · rw [List.length_map]
    exact inside_exact ps v

theorem pos_of {ps qs : List (V ℚ)} {cs : List (Meeting X)} (hcs : ∀ c, c ∈ cs ↔ Meets ps qs c) {x : Nat} {v : V ℚ}
    (h : At (ps.map fin) (qs.map fin) cs (pt false ps.length x) (fin v)) : PosOf ps (cs.map fun c => (c.i, c.j, c.aAlpha.val)) x v := by
  unfold pt at h
  by_cases hx : x < ps.length
  · rw [if_pos hx] at h
    left
    have h' : (ps.map fin)[x]? = some (fin v) := h
    rw [List.getElem?_map, List.getElem?_eq_getElem hx] at h'
    rw [List.getElem?_eq_getElem hx]
    have e := Option.some.inj h'
    have e1 := congrArg V.x e
    have e2 := congrArg V.y e
    unfold fin at e1 e2
    congr 1
    cases hv : ps[x]
    rw [hv] at e1 e2
    cases v
    simp only [X.fin.injEq] at e1 e2
    rw [e1, e2]
  · rw [if_neg hx] at h
    obtain ⟨c, hc, e⟩ := h
    obtain ⟨p, q, r, s, a, b, h1, h2, h3, h4, h5, h6⟩ := (hcs c).1 (List.mem_of_getElem? hc)
    refine .inr ⟨x - ps.length, (c.i, c.j, c.aAlpha.val), p, q, by omega, by rw [List.getElem?_map, hc]; rfl, h1, ?_⟩
    rw [h4] at e
    unfold fin at e
    unfold along
    rw [h5]
    cases v
    simp only [V.mk.injEq, X.fin.injEq] at e
    simp only [X.val, V.mk.injEq]
    exact ⟨e.1.symm, e.2.symm⟩

theorem pos_of' {ps qs : List (V ℚ)} {cs : List (Meeting X)} (hcs : ∀ c, c ∈ cs ↔ Meets ps qs c) {x : Nat} {v : V ℚ}
    (h : At (ps.map fin) (qs.map fin) cs (pt true qs.length x) (fin v)) : PosOf qs (cs.map fun c => (c.j, c.i, c.bAlpha.val)) x v := by
  unfold pt at h
  by_cases hx : x < qs.length
  · rw [if_pos hx] at h
    left
    have h' : (qs.map fin)[x]? = some (fin v) := h
    rw [List.getElem?_map, List.getElem?_eq_getElem hx] at h'
    rw [List.getElem?_eq_getElem hx]
    have e := Option.some.inj h'
    have e1 := congrArg V.x e
    have e2 := congrArg V.y e
    unfold fin at e1 e2
    congr 1
    cases hv : qs[x]
    rw [hv] at e1 e2
    cases v
    simp only [X.fin.injEq] at e1 e2
    rw [e1, e2]
  · rw [if_neg hx] at h
    obtain ⟨c, hc, e⟩ := h
    obtain ⟨p, q, r, s, a, b, h1, h2, h3, h4, h5, h6⟩ := (hcs c).1 (List.mem_of_getElem? hc)
    refine .inr ⟨x - qs.length, (c.j, c.i, c.bAlpha.val), r, s, by omega, by rw [List.getElem?_map, hc]; rfl, h2, ?_⟩
    rw [h4] at e
    unfold fin at e
    unfold along
    rw [h6]
    cases v
    simp only [V.mk.injEq, X.fin.injEq] at e
    have ex := h3.ex
    have ey := h3.ey
    simp only [X.val, V.mk.injEq]
    exact ⟨by rw [← e.1, ex], by rw [← e.2, ey]⟩

theorem separatedA {ps qs : List (V ℚ)} (hg : General ps qs) {cs : List (Meeting X)} (hcs : ∀ c, c ∈ cs ↔ Meets ps qs c)
    (hpw : cs.Pairwise (fun c d => Before (c.i, c.j) (d.i, d.j))) {data : List (CV X)} {ring : List Nat}
    (T : Tour exact data ps.length (cs.map Meeting.onA) ring) {p0 : V ℚ} (h0 : ps[0]? = some p0) {b0 : Bool} (hb : Inside qs p0 b0) :
    Separated ps qs cs false ps.length ring b0 qs := by
  obtain ⟨H, hS⟩ := crossingsA hg hcs hpw
  intro x y v w t hxy hv hw hne ht ht1
  have h1 := fun inside => piece_inside H T hS h0 hb hxy (pos_of hcs hv) (pos_of hcs hw) hne ht ht1 inside
  exact ⟨by simpa [along, between] using h1 true, by simpa [along, between] using h1 false⟩

theorem separatedB {ps qs : List (V ℚ)} (hg : General ps qs) {cs : List (Meeting X)} (hcs : ∀ c, c ∈ cs ↔ Meets ps qs c)
    (hpw : cs.Pairwise (fun c d => Before (c.i, c.j) (d.i, d.j))) {data : List (CV X)} {ring : List Nat}
    (T : Tour exact data qs.length (cs.map Meeting.onB) ring) {q0 : V ℚ} (h0 : qs[0]? = some q0) {b0 : Bool} (hb : Inside ps q0 b0) :
    Separated ps qs cs true qs.length ring b0 ps := by
  obtain ⟨H, hS⟩ := crossingsB hg hcs hpw
  intro x y v w t hxy hv hw hne ht ht1
  have h1 := fun inside => piece_inside H T hS h0 hb hxy (pos_of' hcs hv) (pos_of' hcs hw) hne ht ht1 inside
  exact ⟨by simpa [along, between] using h1 true, by simpa [along, between] using h1 false⟩

theorem clipped_find {ps qs : List (V ℚ)} (hp : ps ≠ []) (hq : qs ≠ []) (hg : General ps qs) {memA memB : List (CV X)} {maxA maxB : Nat}
    (ha : ps.length + ps.length * qs.length ≤ maxA) (ha' : maxA ≤ memA.length) (ha16 : maxA ≤ 65536)
    (hb : qs.length + ps.length * qs.length ≤ maxB) (hb' : maxB ≤ memB.length) (hb16 : maxB ≤ 65536) {fuel : Nat}
    (hf : ps.length * (qs.length + 1) < fuel) :
    ∃ a b a' b', ∃ cs : List (Meeting X), transform exact (ps.map fin) ps.length memA maxA = .ok a ∧
      transform exact (qs.map fin) qs.length memB maxB = .ok b ∧
      findIntersections exact fuel a b = .ok (a', b') ∧ Both exact (ps.map fin) (qs.map fin) cs a' b' ∧ (∀ c, c ∈ cs ↔ Meets ps qs c) ∧
      cs.Pairwise (fun c d => Before (c.i, c.j) (d.i, d.j)) ∧ cs.length ≤ ps.length * qs.length ∧ a'.size ≤ a'.data.length ∧
      b'.size ≤ b'.data.length := by
  have hpm : ps.map fin ≠ [] := by simpa using hp
  have hqm : qs.map fin ≠ [] := by simpa using hq
  obtain ⟨a, e1, pa, ca, la⟩ := transform_ok (A := exact) (mem := memA) (maxClipVertices := maxA) qs.length hpm
    (by rw [List.length_map]; omega) ha' ha16
  obtain ⟨b, e2, pb, cb, lb⟩ := transform_ok (A := exact) (mem := memB) (maxClipVertices := maxB) ps.length hqm
    (by rw [List.length_map]; omega) hb' hb16
  have h0 := List.length_pos_iff.2 hp
  have h1 := List.length_pos_iff.2 hq
  have hB : Both exact (ps.map fin) (qs.map fin) [] a b := ⟨by rw [List.length_map]; exact pa, by rw [List.length_map]; exact pb⟩
  have ma : Memory a (ps.length + ps.length * qs.length) := ⟨by omega, by omega, by omega⟩
  have mb : Memory b (qs.length + ps.length * qs.length) := ⟨by omega, by omega, by omega⟩
  obtain ⟨a', b', cs, e3, hB', hcs, hpw⟩ := findLoop_exact hg fuel (i := 0) (j := 0) hB ma mb
    (by simp) (by omega) (by omega) (by omega) h1 (fun c => by simp [Before]) List.Pairwise.nil (by simpa using hf)
  rw [List.length_map] at e1 e2
  rw [if_pos rfl, if_pos rfl] at e3
  refine ⟨a, b, a', b', cs, e1, e2, ?_, hB', hcs, hpw, ?_⟩
  · unfold findIntersections
    rw [pa.original, pb.original, List.length_map, List.length_map]
    exact e3
  · rcases findLoop_inv exact_asymm (n := ps.length) (m := qs.length) fuel (i := 0) (ip := ps.length - 1) (j := 0) (jp := qs.length - 1) hB
      (List.length_map _) (List.length_map _) ma mb (by simp) (by omega) (by omega) (by omega) (by omega) (by omega) with h | h
    · rw [h] at e3
      cases e3
    · obtain ⟨a2, b2, ps', qs', cs', g1, g2, g3, g4, g5, g6, g7, g8, g9⟩ := h
      rw [e3] at g1
      injection g1 with g1
      obtain ⟨rfl, rfl⟩ := Prod.mk.inj g1
      have s1 := g2.a.size
      have s2 := hB'.a.size
      have s3 := g2.b.size
      rw [List.length_map] at s1 s2 s3
      rw [List.length_map] at s2
      exact ⟨by omega, by omega, by omega⟩

/-- C198, what is proved of it: if sides that have a common point are not parallel and the point is not close to a corner, then a piece of
a polygon between two vertices in a row is inside of the other polygon, with all of its points, exactly if its number of crossings
before says so: after an exit it is outside, after an entry inside. (Exact arithmetic. Missing: rounding and other positions.) -/
theorem C198_exits_partial {ps qs : List (V ℚ)} (hg : General ps qs) {p0 q0 : V ℚ} (hp : ps[0]? = some p0) (hq : qs[0]? = some q0)
    {memA memB : List (CV X)} {maxA maxB : Nat}
    (ha : ps.length + ps.length * qs.length ≤ maxA) (ha' : maxA ≤ memA.length) (ha16 : maxA ≤ 65536)
    (hb : qs.length + ps.length * qs.length ≤ maxB) (hb' : maxB ≤ memB.length) (hb16 : maxB ≤ 65536) {fuel : Nat}
    (hf : ps.length * (qs.length + 1) < fuel) :
    ∃ a b a1 b1 a2 b2 ra rb ia ib, ∃ cs : List (Meeting X), transform exact (ps.map fin) ps.length memA maxA = .ok a ∧
      transform exact (qs.map fin) qs.length memB maxB = .ok b ∧ findIntersections exact fuel a b = .ok (a1, b1) ∧
      mark exact a1 b1 false false = .ok (a2, b2) ∧ (∀ c, c ∈ cs ↔ Meets ps qs c) ∧ Inside qs p0 ia ∧ Inside ps q0 ib ∧
      Tour exact a1.data ps.length (cs.map Meeting.onA) ra ∧ Tour exact b1.data qs.length (cs.map Meeting.onB) rb ∧
      Marked ps.length ra ia a1 a2 ∧ Marked qs.length rb ib b1 b2 ∧
      Separated ps qs cs false ps.length ra ia qs ∧ Separated ps qs cs true qs.length rb ib ps := by
  have hpe : ps ≠ [] := fun h => by rw [h] at hp; cases hp
  have hqe : qs ≠ [] := fun h => by rw [h] at hq; cases hq
  obtain ⟨a, b, a1, b1, cs, e1, e2, e3, hB, hcs, hpw, hl, la, lb⟩ := clipped_find hpe hqe hg ha ha' ha16 hb hb' hb16 hf
  obtain ⟨ra, Ta⟩ := hB.a.tour
  obtain ⟨rb, Tb⟩ := hB.b.tour
  obtain ⟨a2, b2, e4, Ma, Mb⟩ := mark_ok hB Ta Tb (p0 := fin p0) (q0 := fin q0) (by rw [List.getElem?_map, hp]; rfl)
    (by rw [List.getElem?_map, hq]; rfl) la lb rfl rfl false false
  rw [List.length_map] at Ta Tb Ma Mb
  simp only [Bool.bne_false] at Ma Mb
  rw [List.length_map] at Ma Mb
  have ia := inside_exact qs p0
  have ib := inside_exact ps q0
  exact ⟨a, b, a1, b1, a2, b2, ra, rb, _, _, cs, e1, e2, e3, e4, hcs, ia, ib, Ta, Tb, Ma, Mb, separatedA hg hcs hpw Ta hp ia,
    separatedB hg hcs hpw Tb hq ib⟩

example : ∃ p0 q0, sampleA[0]? = some p0 ∧ sampleB[0]? = some q0 ∧ Inside sampleB p0 false ∧ Inside sampleA q0 true := by
  refine ⟨⟨0, 0⟩, ⟨2, 2⟩, rfl, rfl, ?_, ?_⟩
  · have h := inside_exact sampleB ⟨0, 0⟩
    have e : decide ((hits exact (sampleB.map fin) (fin ⟨0, 0⟩) 0 sampleB.length).length % 2 = 1) = false := by decide +kernel
    rwa [e] at h
  · have h := inside_exact sampleA ⟨2, 2⟩
    have e : decide ((hits exact (sampleA.map fin) (fin ⟨2, 2⟩) 0 sampleA.length).length % 2 = 1) = true := by decide +kernel
    rwa [e] at h

/-- C199, what is proved of it: if the number of crossings is even and not 0, and the exits and entries come in turn, then polygons are
emitted that consist of exactly the pieces that are inside. (Missing: an odd number, which is possible only by rounding or if corners are
on sides: see C199_even.) -/
theorem C199_emitted_partial {ps qs : List (V F)} {cs : List (Meeting F)} {a b a' b' : Clip F}
    (ha : Prepared A qs.length ps (cs.map Meeting.onA) a) (hb : Prepared A ps.length qs (cs.map Meeting.onB) b) {ra rb : List Nat}
    (Ta : Tour A a.data ps.length (cs.map Meeting.onA) ra) (Tb : Tour A b.data qs.length (cs.map Meeting.onB) rb) {ia ib : Bool}
    (Ma : Marked ps.length ra ia a a') (Mb : Marked qs.length rb ib b b') (hp : ps ≠ []) (hq : qs ≠ [])
    (heven : cs.length % 2 = 0) (hne : cs ≠ []) {limit maxPolygons maxCount : Nat} {entries : List Entry} {vertices : List (V F)}
    (hlimit : cs.length ≤ limit) (hmp : cs.length ≤ 2 * maxPolygons) (hel : maxPolygons ≤ entries.length)
    (hmc : ps.length + qs.length + cs.length ≤ maxCount) (hvl : maxCount ≤ vertices.length) :
    ∃ polys e, emitClipped A limit a' b' entries maxPolygons vertices maxCount = .ok e ∧
      Pieces ps.length qs.length cs.length ra rb ia ib polys ∧ Output ps qs cs polys e := by
  obtain ⟨polys, e, h1, h2, h3, -⟩ := emitted ⟨ha, hb⟩ Ta Tb Ma Mb (List.length_pos_iff.2 hp) (List.length_pos_iff.2 hq) heven hne hlimit hmp hel
    hmc hvl
  exact ⟨polys, e, h1, h2, h3⟩

/-- C199, what is proved of it: with two crossings there is one polygon, and the simpler function writes the same vertices and returns
their number. (Missing: other numbers of crossings.) -/
theorem C199_one_partial {ps qs : List (V F)} {cs : List (Meeting F)} {a b a' b' : Clip F}
    (ha : Prepared A qs.length ps (cs.map Meeting.onA) a) (hb : Prepared A ps.length qs (cs.map Meeting.onB) b) {ra rb : List Nat}
    (Ta : Tour A a.data ps.length (cs.map Meeting.onA) ra) (Tb : Tour A b.data qs.length (cs.map Meeting.onB) rb) {ia ib : Bool}
    (Ma : Marked ps.length ra ia a a') (Mb : Marked qs.length rb ib b b') (hp : ps ≠ []) (hq : qs ≠ [])
    (htwo : cs.length = 2) {limit maxCount : Nat} {vertices : List (V F)}
    (hlimit : 2 ≤ limit) (hmc : ps.length + qs.length + 2 ≤ maxCount) (hvl : maxCount ≤ vertices.length) :
    ∃ poly vertices', emitOne A limit a' b' vertices maxCount = .ok (poly.length, vertices') ∧
      Pieces ps.length qs.length 2 ra rb ia ib [poly] ∧
      ∀ (i : Nat) p, poly[i]? = some p → ∃ v, vertices'[i]? = some v ∧ At ps qs cs p v := by
  have hne : cs ≠ [] := fun h => by rw [h] at htwo; cases htwo
  obtain ⟨polys, e, h1, h2, h3, h4, h5⟩ := emitted ⟨ha, hb⟩ Ta Tb Ma Mb (List.length_pos_iff.2 hp) (List.length_pos_iff.2 hq) (by omega) hne
    (limit := limit) (maxPolygons := 1) (entries := [⟨0, 0⟩]) (by omega) (by omega) (by simp) (by omega) hvl
  rw [htwo] at h2
  obtain ⟨poly, rfl⟩ : ∃ poly, polys = [poly] := by
    match polys, h2, h3 with
    | [], h2, h3 =>
      have := (h2.crossing 0).2 (by omega)
      simp at this
    | [poly], h2, h3 => exact ⟨poly, rfl⟩
    | p :: q :: l, h2, h3 =>
      have h := (List.getElem?_eq_some_iff.1 (h3.entry 1 q rfl)).1
      rw [h4] at h
      simp at h
  refine ⟨poly, e.vertices, ?_, h2, ?_⟩
  · have h := h3.entry 0 poly rfl
    unfold emitOne
    rw [h1, ok_bind, rd_some h, ok_bind]
  · intro i p hi
    exact h3.vertex i p (by simpa using hi)

/-- C199: there are no two polygons in general position with an odd number of crossings. -/
theorem C199_even {ps qs : List (V ℚ)} (hp : ps ≠ []) (hg : General ps qs) {cs : List (Meeting X)} (hn : cs.Nodup)
    (hcs : ∀ c, c ∈ cs ↔ Meets ps qs c) : cs.length % 2 = 0 := by
  have h0 := List.length_pos_iff.2 hp
  have H : Crossings ps qs (cs.map fun c => (c.i, c.j, c.aAlpha.val)) := by
    refine ⟨fun i j x => ?_, ?_, ?_⟩
    · simp only [List.mem_map, Prod.mk.injEq]
      constructor
      · rintro ⟨c, hc, rfl, rfl, rfl⟩
        obtain ⟨p, q, r, s, x, y, h1, h2, h3, -, h4, -⟩ := (hcs c).1 hc
        rw [h4]
        exact ⟨p, q, r, s, y, h1, h2, h3⟩
      · rintro ⟨p, q, r, s, y, h1, h2, h3⟩
        exact ⟨⟨i, j, ⟨.fin (p.x + x * (q.x - p.x)), .fin (p.y + x * (q.y - p.y))⟩, .fin x, .fin y⟩,
          (hcs _).2 ⟨p, q, r, s, x, y, h1, h2, h3, rfl, rfl, rfl⟩, rfl, rfl, rfl⟩
    · rw [List.map_map]
      refine hn.map_on fun c hc d hd e => ?_
      obtain ⟨p, q, r, s, x, y, h1, h2, h3, h4, h5, h6⟩ := (hcs c).1 hc
      obtain ⟨p', q', r', s', x', y', g1, g2, g3, g4, g5, g6⟩ := (hcs d).1 hd
      simp only [Function.comp_apply, Prod.mk.injEq] at e
      rw [← e.1] at g1
      rw [← e.2] at g2
      obtain ⟨rfl, rfl⟩ := side_unique g1 h1
      obtain ⟨rfl, rfl⟩ := side_unique g2 h2
      have ht := (hg _ _ _ _ _ _ _ _ h1 h2 h3).1
      have k1 := h3.ex
      have k2 := h3.ey
      have k3 := g3.ex
      have k4 := g3.ey
      have hx : x = x' := by
        have : (x - x') * turn p q r s = 0 := by
          unfold turn
          linear_combination (s.y - r.y) * (k1 - k3) - (s.x - r.x) * (k2 - k4)
        rcases mul_eq_zero.1 this with h | h
        · linarith
        · exact absurd h ht
      have hy : y = y' := by
        have : (y - y') * turn p q r s = 0 := by
          unfold turn
          linear_combination (q.y - p.y) * (k1 - k3) - (q.x - p.x) * (k2 - k4)
        rcases mul_eq_zero.1 this with h | h
        · linarith
        · exact absurd h ht
      subst hx hy
      cases c
      cases d
      simp only at e h4 h5 h6 g4 g5 g6
      obtain ⟨rfl, rfl⟩ := e
      rw [h4, h5, h6, g4, g5, g6]
    · intro i j p q r s h1 h2 x y h
      obtain ⟨g1, -, -, g2, g3, g4, g5⟩ := hg i j p q r s x y h1 h2 h
      exact ⟨g1, by linarith, by linarith, by linarith, by linarith⟩
  have := crossings_even H h0
  rwa [List.length_map] at this

/-- C200: if there are no crossings then the first polygon is emitted if its vertex 0 is inside of the second, otherwise the second polygon
if its vertex 0 is inside of the first, and otherwise nothing. -/
theorem C200_whole {ps qs : List (V F)} {a b : Clip F} (ha : Prepared A qs.length ps [] a)
    (hb : Prepared A ps.length qs [] b) {p0 q0 : V F} (hp : ps[0]? = some p0) (hq : qs[0]? = some q0)
    (la : a.size ≤ a.data.length) (lb : b.size ≤ b.data.length) (aBackward bBackward : Bool)
    {limit maxPolygons maxCount : Nat} {entries : List Entry} {vertices : List (V F)} (hmp : 1 ≤ maxPolygons) (hel : 1 ≤ entries.length)
    (hmc : ps.length ≤ maxCount) (hmc' : qs.length ≤ maxCount) (hvl : maxCount ≤ vertices.length) :
    ∃ ia ib a' b' e, pointInside A b p0 = .ok ia ∧ pointInside A a q0 = .ok ib ∧ mark A a b aBackward bBackward = .ok (a', b') ∧
      emitClipped A limit a' b' entries maxPolygons vertices maxCount = .ok e ∧
      Output ps qs [] (if ia then [(List.range ps.length).map Pt.a] else if ib then [(List.range qs.length).map Pt.b] else []) e := by
  obtain ⟨ra, Ta⟩ := ha.tour
  obtain ⟨rb, Tb⟩ := hb.tour
  have hqs : ∀ (i : Nat) q, qs[i]? = some q → ∃ v : CV F, b.data[i]? = some v ∧ v.pos = q := fun i q hi => by
    obtain ⟨v, h1, h2, -⟩ := hb.corner i q hi
    exact ⟨v, h1, h2⟩
  have hps : ∀ (i : Nat) q, ps[i]? = some q → ∃ v : CV F, a.data[i]? = some v ∧ v.pos = q := fun i q hi => by
    obtain ⟨v, h1, h2, -⟩ := ha.corner i q hi
    exact ⟨v, h1, h2⟩
  have hB : Both A ps qs [] a b := ⟨ha, hb⟩
  obtain ⟨a', b', e, Ma, Mb⟩ := mark_ok hB Ta Tb hp hq la lb rfl rfl aBackward bBackward
  obtain ⟨r, e', h, -⟩ := emitted_none hB Ta Tb Ma Mb hp hq rfl rfl (limit := limit) hmp hel hmc hmc' hvl
  exact ⟨_, _, a', b', r, pointInside_ok hb.original hqs p0, pointInside_ok ha.original hps q0, e, e', h⟩

/-- C201, what is proved of it: two polygons are clipped. If sides that have a common point are not parallel and the point is not close to
a corner, and if the memory suffices, then polygons are emitted that consist of exactly the pieces of each polygon that are inside of the
other one, by the even-odd rule. If no sides have a common point then one of the polygons is emitted if its vertex 0 is inside of the
other, and nothing otherwise. (Exact arithmetic. Missing: rounding and other positions.) -/
theorem C201_clipped_partial {ps qs : List (V ℚ)} (hg : General ps qs) {p0 q0 : V ℚ} (hp : ps[0]? = some p0) (hq : qs[0]? = some q0)
    {memA memB : List (CV X)} {maxA maxB : Nat}
    (ha : ps.length + ps.length * qs.length ≤ maxA) (ha' : maxA ≤ memA.length) (ha16 : maxA ≤ 65536)
    (hb : qs.length + ps.length * qs.length ≤ maxB) (hb' : maxB ≤ memB.length) (hb16 : maxB ≤ 65536) {fuel : Nat}
    (hf : ps.length * (qs.length + 1) < fuel) {limit maxPolygons maxCount : Nat} {entries : List Entry} {vertices : List (V X)}
    (hlimit : ps.length * qs.length ≤ limit) (hmp : ps.length * qs.length ≤ 2 * maxPolygons) (hel : maxPolygons ≤ entries.length)
    (hmc : ps.length + qs.length + ps.length * qs.length ≤ maxCount) (hvl : maxCount ≤ vertices.length) :
    ∃ a b a1 b1 a2 b2 ra rb ia ib polys e, ∃ cs : List (Meeting X),
      transform exact (ps.map fin) ps.length memA maxA = .ok a ∧
      transform exact (qs.map fin) qs.length memB maxB = .ok b ∧ findIntersections exact fuel a b = .ok (a1, b1) ∧
      mark exact a1 b1 false false = .ok (a2, b2) ∧ emitClipped exact limit a2 b2 entries maxPolygons vertices maxCount = .ok e ∧
      cs.Nodup ∧ (∀ c, c ∈ cs ↔ Meets ps qs c) ∧ Inside qs p0 ia ∧ Inside ps q0 ib ∧
      Tour exact a1.data ps.length (cs.map Meeting.onA) ra ∧ Tour exact b1.data qs.length (cs.map Meeting.onB) rb ∧
      Separated ps qs cs false ps.length ra ia qs ∧ Separated ps qs cs true qs.length rb ib ps ∧
      Output (ps.map fin) (qs.map fin) cs polys e ∧
      (cs ≠ [] → Pieces ps.length qs.length cs.length ra rb ia ib polys) ∧
      (cs = [] → polys = if ia then [(List.range ps.length).map Pt.a] else if ib then [(List.range qs.length).map Pt.b] else []) := by
  have hpe : ps ≠ [] := fun h => by rw [h] at hp; cases hp
  have hqe : qs ≠ [] := fun h => by rw [h] at hq; cases hq
  have h0 := List.length_pos_iff.2 hpe
  have h1 := List.length_pos_iff.2 hqe
  have h2 := Nat.mul_pos h0 h1
  obtain ⟨a, b, a1, b1, cs, e1, e2, e3, hB, hcs, hpw, hl, la, lb⟩ := clipped_find hpe hqe hg ha ha' ha16 hb hb' hb16 hf
  obtain ⟨ra, Ta⟩ := hB.a.tour
  obtain ⟨rb, Tb⟩ := hB.b.tour
  have hpf : (ps.map fin)[0]? = some (fin p0) := by rw [List.getElem?_map, hp]; rfl
  have hqf : (qs.map fin)[0]? = some (fin q0) := by rw [List.getElem?_map, hq]; rfl
  obtain ⟨a2, b2, e4, Ma, Mb⟩ := mark_ok hB Ta Tb hpf hqf la lb rfl rfl false false
  have hn : cs.Nodup := hpw.imp fun {c d} h e => by
    subst e
    unfold Before at h
    simp only at h
    omega
  have lp : (ps.map fin).length = ps.length := List.length_map _
  have lq : (qs.map fin).length = qs.length := List.length_map _
  have ia := inside_exact qs p0
  have ib := inside_exact ps q0
  have Ta' := Ta
  have Tb' := Tb
  rw [lp] at Ta'
  rw [lq] at Tb'
  have sA := separatedA hg hcs hpw Ta' hp ia
  have sB := separatedB hg hcs hpw Tb' hq ib
  by_cases hne : cs = []
  · subst hne
    obtain ⟨e, e5, o, -⟩ := emitted_none hB Ta Tb Ma Mb hpf hqf rfl rfl (limit := limit) (maxPolygons := maxPolygons) (entries := entries)
      (maxCount := maxCount) (vertices := vertices) (by omega) (by omega) (by omega) (by omega) hvl
    rw [lp, lq] at o
    exact ⟨a, b, a1, b1, a2, b2, ra, rb, _, _, _, e, [], e1, e2, e3, e4, e5, hn, hcs, ia, ib, Ta', Tb', sA, sB, o, fun h => absurd rfl h, fun _ => rfl⟩
  · have heven : cs.length % 2 = 0 := by
      have := crossings_even (crossingsA hg hcs hpw).1 h0
      rwa [List.length_map] at this
    obtain ⟨polys, e, e5, P, o, -⟩ := emitted hB Ta Tb Ma Mb (by omega) (by omega) heven hne (limit := limit) (maxPolygons := maxPolygons)
      (entries := entries) (maxCount := maxCount) (vertices := vertices) (by omega) (by omega) hel (by omega) hvl
    simp only [Bool.bne_false] at P
    rw [lp, lq] at P
    exact ⟨a, b, a1, b1, a2, b2, ra, rb, _, _, polys, e, cs, e1, e2, e3, e4, e5, hn, hcs, ia, ib, Ta', Tb', sA, sB, o, fun _ => P, fun h => absurd h hne⟩

/-- What is emitted for the two squares: the small square that they have in common. -/
example : (transform exact (sampleA.map fin) 4 (sampleMem 20) 20 >>= fun a => transform exact (sampleB.map fin) 4 (sampleMem 20) 20 >>= fun b =>
    findIntersections exact 21 a b >>= fun r => mark exact r.1 r.2 false false >>= fun r =>
    emitClipped exact 16 r.1 r.2 (List.replicate 8 ⟨0, 0⟩) 8 (List.replicate 24 ⟨.nan, .nan⟩) 24 >>= fun e =>
    .ok (e.polygons, e.entries.take 1, e.vertices.take 4)) =
    .ok (1, [⟨0, 4⟩], [⟨4, 4⟩, ⟨2, 4⟩, ⟨2, 2⟩, ⟨4, 2⟩].map fin) := by decide +kernel

example : ∃ a b ra rb ia ib, ∃ a' b', ∃ cs : List (Meeting X), Prepared exact 4 (sampleA.map fin) (cs.map Meeting.onA) a ∧
    Prepared exact 4 (sampleB.map fin) (cs.map Meeting.onB) b ∧ Tour exact a.data 4 (cs.map Meeting.onA) ra ∧
    Tour exact b.data 4 (cs.map Meeting.onB) rb ∧ Marked 4 ra ia a a' ∧ Marked 4 rb ib b b' ∧ cs.Nodup ∧ (∀ c, c ∈ cs ↔ Meets sampleA sampleB c) ∧
    cs.length = 2 := by
  obtain ⟨a, b, a1, b1, cs, e1, e2, e3, hB, hcs, hpw, hl, la, lb⟩ := clipped_find (ps := sampleA) (qs := sampleB) (by simp [sampleA])
    (by simp [sampleB]) sample_general (memA := sampleMem 20) (memB := sampleMem 20) (maxA := 20) (maxB := 20) (by decide) (by decide) (by decide)
    (by decide) (by decide) (by decide) (fuel := 21) (by decide)
  obtain ⟨ra, Ta⟩ := hB.a.tour
  obtain ⟨rb, Tb⟩ := hB.b.tour
  obtain ⟨a2, b2, e4, Ma, Mb⟩ := mark_ok hB Ta Tb (p0 := fin ⟨0, 0⟩) (q0 := fin ⟨2, 2⟩) rfl rfl la lb rfl rfl false false
  refine ⟨a1, b1, ra, rb, _, _, a2, b2, cs, hB.a, hB.b, Ta, Tb, Ma, Mb, hpw.imp fun {c d} h e => ?_, hcs, ?_⟩
  · subst e
    unfold Before at h
    simp only at h
    omega
  · have : (transform exact (sampleA.map fin) 4 (sampleMem 20) 20 >>= fun a => transform exact (sampleB.map fin) 4 (sampleMem 20) 20 >>= fun b =>
        findIntersections exact 21 a b >>= fun r => .ok r.1.size) = .ok 6 := by decide +kernel
    rw [show transform exact (sampleA.map fin) 4 (sampleMem 20) 20 = _ from e1, ok_bind,
      show transform exact (sampleB.map fin) 4 (sampleMem 20) 20 = _ from e2, ok_bind, e3, ok_bind] at this
    injection this with this
    have h := hB.a.size
    rw [List.length_map, List.length_map, this] at h
    change 6 = 4 + cs.length at h
    omega

/-- A square in the other square: it is emitted as a whole. -/
example : (transform exact (sampleA.map fin) 4 (sampleMem 20) 20 >>= fun a => transform exact ([⟨1, 1⟩, ⟨2, 1⟩, ⟨2, 2⟩].map fin) 3 (sampleMem 20) 20 >>=
    fun b => findIntersections exact 21 a b >>= fun r => mark exact r.1 r.2 false false >>= fun r =>
    emitClipped exact 16 r.1 r.2 (List.replicate 8 ⟨0, 0⟩) 8 (List.replicate 24 ⟨.nan, .nan⟩) 24 >>= fun e =>
    .ok (e.polygons, e.entries.take 1, e.vertices.take 3)) =
    .ok (1, [⟨0, 3⟩], [⟨1, 1⟩, ⟨2, 1⟩, ⟨2, 2⟩].map fin) := by decide +kernel

end Tm.Poly
