import Verif.Poly.ClipInsert

/-! # Preparing two polygons -/

namespace Tm.Poly
open Spec

variable {F : Type} {A : Arith F}

/-- A corner after `clipPolyTransformData`. -/
def node (A : Arith F) (v : V F) (next prev : BitVec 16) : CV F := ⟨v, next, prev, false, false, false, 0, A.lit 0⟩

theorem transformLoop_ok {vertices : List (V F)} : ∀ (n i : Nat) (prev : BitVec 16) (mem : List (CV F)), i + n ≤ vertices.length → i + n ≤ mem.length →
    ∃ data, transformLoop A vertices n i prev mem = .ok data ∧ data.length = mem.length ∧
      (∀ k, k < i → data[k]? = mem[k]?) ∧
      ∀ k v, i ≤ k → k < i + n → vertices[k]? = some v →
        data[k]? = some (node A v (BitVec.ofNat 16 (k + 1)) (if k = i then prev else BitVec.ofNat 16 (k - 1)))
  | 0, i, prev, mem, _, _ => ⟨mem, rfl, rfl, fun _ _ => rfl, fun k v h1 h2 => by omega⟩
  | n + 1, i, prev, mem, h1, h2 => by
    obtain ⟨data, e, l, u, d⟩ := transformLoop_ok (vertices := vertices) n (i + 1) (BitVec.ofNat 16 i)
      (mem.set i (node A (vertices[i]'(by omega)) (BitVec.ofNat 16 (i + 1)) prev)) (by omega) (by rw [List.length_set]; omega)
    refine ⟨data, ?_, by rw [l, List.length_set], fun k hk => ?_, fun k v hk hk' hv => ?_⟩
    · rw [transformLoop, rd_ok (by omega), ok_bind, wr_ok (by omega), ok_bind]
      exact e
    · rw [u k (by omega), List.getElem?_set_ne (by omega)]
    · by_cases e' : k = i
      · subst e'
        rw [u k (by omega), List.getElem?_set_self (by omega), if_pos rfl]
        rw [List.getElem?_eq_getElem (by omega)] at hv
        cases hv
        rfl
      · rw [d k v (by omega) (by omega) hv, if_neg e']
        by_cases e2 : k = i + 1
        · subst e2
          rw [if_pos rfl, Nat.add_sub_cancel]
        · rw [if_neg e2]

theorem chain_range {R : Nat → Nat → Prop} {n : Nat} (h1 : ∀ k, k + 1 < n → R k (k + 1)) (h2 : R (n - 1) 0) (h0 : 0 < n) :
    (List.range n ++ [0]).IsChain R := by
  obtain ⟨n, rfl⟩ : ∃ k, n = k + 1 := ⟨n - 1, by omega⟩
  rw [List.range_succ, List.append_assoc, List.singleton_append, List.isChain_append_cons_cons]
  refine ⟨?_, h2, .singleton _⟩
  rw [← List.range_succ]
  clear h2 h0
  induction n with
  | zero => exact .singleton _
  | succ n ih =>
    rw [List.range_succ, List.range_succ, List.append_assoc, List.singleton_append, List.isChain_append_cons_cons]
    exact ⟨by rw [← List.range_succ]; exact ih fun k hk => h1 k (by omega), h1 n (by omega), .singleton _⟩

theorem transform_ok (m : Nat) {vertices : List (V F)} {mem : List (CV F)} {maxClipVertices : Nat} (h0 : vertices ≠ [])
    (hc : vertices.length ≤ maxClipVertices) (hm : maxClipVertices ≤ mem.length) (h16 : maxClipVertices ≤ 65536) :
    ∃ vs, transform A vertices vertices.length mem maxClipVertices = .ok vs ∧ Prepared A m vertices [] vs ∧ vs.capacity = maxClipVertices ∧
      vs.data.length = mem.length := by
  have hpos : 0 < vertices.length := List.length_pos_iff.2 h0
  have t1 : ∀ k < 65536, (BitVec.ofNat 16 k).toNat = k := fun k hk => by rw [BitVec.toNat_ofNat]; exact Nat.mod_eq_of_lt (by omega)
  obtain ⟨data, e, l, -, d⟩ := transformLoop_ok (A := A) (vertices := vertices) vertices.length 0 (BitVec.ofNat 16 vertices.length - 1) mem (by omega) (by omega)
  have d' : ∀ k (hk : k < vertices.length), data[k]? = some (node A vertices[k] (BitVec.ofNat 16 (k + 1))
      (if k = 0 then BitVec.ofNat 16 vertices.length - 1 else BitVec.ofNat 16 (k - 1))) :=
    fun k hk => d k _ (Nat.zero_le k) (by omega) (List.getElem?_eq_getElem hk)
  have hlast := d' (vertices.length - 1) (by omega)
  have hfin : ∀ k (hk : k < vertices.length), ∃ next prev, (data.set (vertices.length - 1)
      { (node A (vertices[vertices.length - 1]'(by omega)) (BitVec.ofNat 16 (vertices.length - 1 + 1))
        (if vertices.length - 1 = 0 then BitVec.ofNat 16 vertices.length - 1 else BitVec.ofNat 16 (vertices.length - 1 - 1))) with next := 0 })[k]?
        = some (node A vertices[k] next prev) ∧ next.toNat = (if k + 1 = vertices.length then 0 else k + 1) ∧
        prev.toNat = (if k = 0 then vertices.length - 1 else k - 1) := by
    have hp0 : (BitVec.ofNat 16 vertices.length - 1 : BitVec 16).toNat = vertices.length - 1 := by
      rw [BitVec.toNat_sub, BitVec.toNat_ofNat, show (1 : BitVec 16).toNat = 1 from rfl]
      omega
    intro k hk
    by_cases ek : k = vertices.length - 1
    · subst ek
      refine ⟨0, _, by rw [List.getElem?_set_self (by omega)]; rfl, by rw [if_pos (by omega)]; rfl, ?_⟩
      split
      · exact hp0
      · exact t1 _ (by omega)
    · refine ⟨BitVec.ofNat 16 (k + 1), if k = 0 then BitVec.ofNat 16 vertices.length - 1 else BitVec.ofNat 16 (k - 1), ?_, ?_, ?_⟩
      · rw [List.getElem?_set_ne (Ne.symm ek), d' k hk]
      · rw [if_neg (by omega), t1 _ (by omega)]
      · split
        · exact hp0
        · exact t1 _ (by omega)
  refine ⟨⟨data.set (vertices.length - 1)
      { (node A (vertices[vertices.length - 1]'(by omega)) (BitVec.ofNat 16 (vertices.length - 1 + 1))
        (if vertices.length - 1 = 0 then BitVec.ofNat 16 vertices.length - 1 else BitVec.ofNat 16 (vertices.length - 1 - 1))) with next := 0 },
      vertices.length, vertices.length, maxClipVertices⟩, ?_, ⟨rfl, rfl, fun i p hi => ?_, fun k c hk => (by cases hk),
      ⟨List.range vertices.length, ⟨?_, ?_⟩, List.Perm.refl _, ?_, ?_, ?_⟩⟩, rfl, ?_⟩
  · unfold transform
    rw [assert_ok (by simpa using hc), ok_bind, e, ok_bind, if_neg (by omega), change_ok hlast, ok_bind]
  · have hil := (List.getElem?_eq_some_iff.1 hi)
    obtain ⟨hil, rfl⟩ := hil
    obtain ⟨next, prev, h1, -⟩ := hfin i hil
    exact ⟨_, h1, rfl, rfl, rfl, rfl⟩
  · obtain ⟨n, hn⟩ : ∃ k, vertices.length = k + 1 := ⟨vertices.length - 1, by omega⟩
    rw [hn, List.range_succ_eq_map]
    rfl
  · refine chain_range (fun k hk => ?_) ?_ hpos
    · obtain ⟨n1, p1, h1, h2, -⟩ := hfin k (by omega)
      obtain ⟨n2, p2, h4, -, h5⟩ := hfin (k + 1) hk
      exact ⟨⟨_, h1, by show n1.toNat = _; rw [h2, if_neg (by omega)]⟩, ⟨_, h4, by show p2.toNat = _; rw [h5, if_neg (by omega)]; rfl⟩⟩
    · obtain ⟨n1, p1, h1, h2, -⟩ := hfin (vertices.length - 1) (by omega)
      obtain ⟨n2, p2, h4, -, h5⟩ := hfin 0 hpos
      exact ⟨⟨_, h1, by show n1.toNat = _; rw [h2, if_pos (by omega)]⟩, ⟨_, h4, by show p2.toNat = _; rw [h5, if_pos rfl]⟩⟩
  · exact List.filter_eq_self.2 fun x hx => by simpa using List.mem_range.1 hx
  · intro pre k post c _ hk
    cases hk
  · intro pre k k2 post c d _ hk
    cases hk
  · simp [l]

/-- Moving a corner. -/
theorem push_prepared {m : Nat} {ps : List (V F)} {cs : List (Crossing F)} {vs : Clip F} (hP : Prepared A m ps cs vs) {i : Nat}
    (hi : i < ps.length) (dir : V F) :
    ∃ data p, push A vs.data i dir = .ok data ∧ data.length = vs.data.length ∧ Prepared A m (ps.set i p) cs { vs with data := data } := by
  obtain ⟨v, hv, -, h1, h2, h3⟩ := hP.corner i ps[i] (List.getElem?_eq_getElem hi)
  have hil := (List.getElem?_eq_some_iff.1 hv).1
  refine ⟨_, ⟨A.sub v.pos.x (A.mul dir.y (A.lit (1 / 10000))), A.add v.pos.y (A.mul dir.x (A.lit (1 / 10000)))⟩, change_ok hv _,
    List.length_set, ⟨by simp [hP.original], by simp [hP.size], fun k p hk => ?_, fun k c hk => ?_, ?_⟩⟩
  · by_cases e : i = k
    · subst e
      rw [List.getElem?_set_self hi] at hk
      cases hk
      refine ⟨_, List.getElem?_set_self hil, rfl, h1, h2, h3⟩
    · rw [List.getElem?_set_ne e] at hk
      obtain ⟨w, hw, h⟩ := hP.corner k p hk
      exact ⟨w, by simp only; rw [List.getElem?_set_ne e, hw], h⟩
  · obtain ⟨w, hw, h⟩ := hP.crossing k c hk
    exact ⟨w, by simp only [List.length_set]; rw [List.getElem?_set_ne (by omega), hw], h⟩
  · obtain ⟨ring, T⟩ := hP.tour
    rw [List.length_set]
    refine ⟨ring, ⟨T.closed.1, ?_⟩, T.all, T.corners, T.place, T.sorted⟩
    refine T.closed.2.imp fun x y hl => ?_
    obtain ⟨⟨u, hu, e⟩, w, hw, e'⟩ := hl
    constructor
    · by_cases ex : i = x
      · subst ex
        rw [hv] at hu
        cases hu
        exact ⟨_, List.getElem?_set_self hil, e⟩
      · exact ⟨u, by simp only; rw [List.getElem?_set_ne ex, hu], e⟩
    · by_cases ex : i = y
      · subst ex
        rw [hv] at hw
        cases hw
        exact ⟨_, List.getElem?_set_self hil, e'⟩
      · exact ⟨w, by simp only; rw [List.getElem?_set_ne ex, hw], e'⟩

/-- The two factors for two sides, if they are in the interval from 0 to 1. -/
def factors (A : Arith F) (p q r s : V F) : Option (F × F) :=
  match intersectionFactor A p (q.minus A p) r (s.minus A r), intersectionFactor A r (s.minus A r) p (q.minus A p) with
  | some x, some y => if inUnit A x && inUnit A y then some (x, y) else none
  | _, _ => none

/-- One of the factors is close to 0 or 1. -/
def degenerate (A : Arith F) (x y : F) : Bool :=
  A.le x (A.lit (1 / 100000)) || A.le (A.lit (99999 / 100000)) x || A.le y (A.lit (1 / 100000)) || A.le (A.lit (99999 / 100000)) y

/-- Two polygons with the points where they cross. -/
structure Both (A : Arith F) (ps qs : List (V F)) (cs : List (Meeting F)) (a b : Clip F) : Prop where
  a : Prepared A qs.length ps (cs.map Meeting.onA) a
  b : Prepared A ps.length qs (cs.map Meeting.onB) b

theorem pair_miss {ps qs : List (V F)} {cs : List (Meeting F)} {a b : Clip F} (h : Both A ps qs cs a b) {i ip j jp : Nat} {p q r s : V F}
    (hi : ps[i]? = some q) (hip : ps[ip]? = some p) (hj : qs[j]? = some s) (hjp : qs[jp]? = some r) (hf : factors A p q r s = none) :
    pair A a b i ip j jp = .ok (false, a, b) := by
  obtain ⟨v1, e1, rfl, -⟩ := h.a.corner i q hi
  obtain ⟨v2, e2, rfl, -⟩ := h.a.corner ip p hip
  obtain ⟨v3, e3, rfl, -⟩ := h.b.corner j s hj
  obtain ⟨v4, e4, rfl, -⟩ := h.b.corner jp r hjp
  unfold pair
  rw [rd_some e1, rd_some e2, rd_some e3, rd_some e4, ok_bind, ok_bind, ok_bind, ok_bind]
  unfold factors at hf
  dsimp only
  generalize intersectionFactor A v2.pos (v1.pos.minus A v2.pos) v4.pos (v3.pos.minus A v4.pos) = x at *
  generalize intersectionFactor A v4.pos (v3.pos.minus A v4.pos) v2.pos (v1.pos.minus A v2.pos) = y at *
  cases x <;> cases y <;> try rfl
  dsimp only at hf ⊢
  split at hf
  · cases hf
  · rename_i h'
    rw [if_neg h']

theorem pair_found {ps qs : List (V F)} {cs : List (Meeting F)} {a b : Clip F} (h : Both A ps qs cs a b) {i ip j jp : Nat} {p q r s : V F}
    {x y : F} (hi : ps[i]? = some q) (hip : ps[ip]? = some p) (hj : qs[j]? = some s) (hjp : qs[jp]? = some r)
    (hf : factors A p q r s = some (x, y)) :
    pair A a b i ip j jp = found A a b i ip j jp p (q.minus A p) (s.minus A r) x y := by
  obtain ⟨v1, e1, rfl, -⟩ := h.a.corner i q hi
  obtain ⟨v2, e2, rfl, -⟩ := h.a.corner ip p hip
  obtain ⟨v3, e3, rfl, -⟩ := h.b.corner j s hj
  obtain ⟨v4, e4, rfl, -⟩ := h.b.corner jp r hjp
  unfold pair
  rw [rd_some e1, rd_some e2, rd_some e3, rd_some e4, ok_bind, ok_bind, ok_bind, ok_bind]
  unfold factors at hf
  dsimp only
  generalize intersectionFactor A v2.pos (v1.pos.minus A v2.pos) v4.pos (v3.pos.minus A v4.pos) = x' at *
  generalize intersectionFactor A v4.pos (v3.pos.minus A v4.pos) v2.pos (v1.pos.minus A v2.pos) = y' at *
  cases x' <;> cases y' <;> try (cases hf; done)
  dsimp only at hf ⊢
  split at hf
  · rename_i h'
    cases hf
    rw [if_pos h']
  · cases hf

theorem found_ok (hA : ∀ x y, A.lt x y = true → A.lt y x = false) {ps qs : List (V F)} {cs : List (Meeting F)} {a b : Clip F}
    (h : Both A ps qs cs a b) (ma : Memory a (a.size + 1)) (mb : Memory b (b.size + 1)) {i ip j jp : Nat} {p aDir bDir : V F} {x y : F}
    (hi : i < ps.length) (hj : j < qs.length) (hd : degenerate A x y = false) :
    ∃ a' b', found A a b i ip j jp p aDir bDir x y = .ok (false, a', b') ∧
      Both A ps qs (cs ++ [⟨i, j, ⟨A.add p.x (A.mul x aDir.x), A.add p.y (A.mul x aDir.y)⟩, x, y⟩]) a' b' ∧
      a'.capacity = a.capacity ∧ a'.data.length = a.data.length ∧ b'.capacity = b.capacity ∧ b'.data.length = b.data.length := by
  unfold degenerate at hd
  simp only [Bool.or_eq_false_iff] at hd
  have sa := h.a.size
  have sb := h.b.size
  rw [List.length_map] at sa sb
  obtain ⟨va, ia, e1, e2, a', e3, Pa, ca, la⟩ := insert_prepared hA h.a ma hi (by
    rw [List.length_map, ← sb]; have := mb.enough; have := mb.numbered; omega)
    ⟨A.add p.x (A.mul x aDir.x), A.add p.y (A.mul x aDir.y)⟩ x
  obtain ⟨vb, ib, f1, f2, b', f3, Pb, cb, lb⟩ := insert_prepared hA h.b mb hj (by
    rw [List.length_map, ← sa]; have := ma.enough; have := ma.numbered; omega)
    ⟨A.add p.x (A.mul x aDir.x), A.add p.y (A.mul x aDir.y)⟩ y
  refine ⟨a', b', ?_, ⟨by rw [List.map_append]; exact Pa, by rw [List.map_append]; exact Pb⟩, ca, la, cb, lb⟩
  unfold found
  rw [hd.1.1.1, hd.1.1.2, hd.1.2, hd.2]
  simp only [Bool.false_eq_true, if_false]
  unfold store
  rw [List.length_map] at e3 f3
  rw [rd_some e1, rd_some f1, ok_bind, ok_bind, e2, ok_bind, f2, ok_bind, sb, sa]
  dsimp only
  rw [e3, ok_bind, f3, ok_bind, ok_bind]

theorem found_degenerate {ps qs : List (V F)} {cs : List (Meeting F)} {a b : Clip F}
    (h : Both A ps qs cs a b) {i ip j jp : Nat} (p aDir bDir : V F) {x y : F}
    (hi : i < ps.length) (hip : ip < ps.length) (hj : j < qs.length) (hjp : jp < qs.length) (hd : degenerate A x y = true) :
    ∃ a' b' ps' qs', found A a b i ip j jp p aDir bDir x y = .ok (true, a', b') ∧
      Both A ps' qs' cs a' b' ∧ ps'.length = ps.length ∧ qs'.length = qs.length ∧ a'.size = a.size ∧ b'.size = b.size ∧
      a'.capacity = a.capacity ∧ a'.data.length = a.data.length ∧ b'.capacity = b.capacity ∧ b'.data.length = b.data.length := by
  unfold found
  by_cases h1 : A.le x (A.lit (1 / 100000)) = true
  · obtain ⟨data, p', e, l, P⟩ := push_prepared h.a hip bDir
    rw [if_pos h1, e, ok_bind]
    exact ⟨_, _, ps.set ip p', qs, rfl, ⟨P, by rw [List.length_set]; exact h.b⟩, List.length_set, rfl, rfl, rfl, rfl, l, rfl, rfl⟩
  rw [if_neg h1]
  by_cases h2 : A.le (A.lit (99999 / 100000)) x = true
  · obtain ⟨data, p', e, l, P⟩ := push_prepared h.a hi bDir
    rw [if_pos h2, e, ok_bind]
    exact ⟨_, _, ps.set i p', qs, rfl, ⟨P, by rw [List.length_set]; exact h.b⟩, List.length_set, rfl, rfl, rfl, rfl, l, rfl, rfl⟩
  rw [if_neg h2]
  by_cases h3 : A.le y (A.lit (1 / 100000)) = true
  · obtain ⟨data, p', e, l, P⟩ := push_prepared h.b hjp aDir
    rw [if_pos h3, e, ok_bind]
    exact ⟨_, _, ps, qs.set jp p', rfl, ⟨by rw [List.length_set]; exact h.a, P⟩, rfl, List.length_set, rfl, rfl, rfl, rfl, rfl, l⟩
  rw [if_neg h3]
  by_cases h4 : A.le (A.lit (99999 / 100000)) y = true
  · obtain ⟨data, p', e, l, P⟩ := push_prepared h.b hj aDir
    rw [if_pos h4, e, ok_bind]
    exact ⟨_, _, ps, qs.set j p', rfl, ⟨by rw [List.length_set]; exact h.a, P⟩, rfl, List.length_set, rfl, rfl, rfl, rfl, rfl, l⟩
  · unfold degenerate at hd
    rw [Bool.not_eq_true] at h1 h2 h3 h4
    rw [h1, h2, h3, h4] at hd
    cases hd

/-- The loops never leave the arrays and keep both polygons in order. -/
theorem findLoop_inv (hA : ∀ x y, A.lt x y = true → A.lt y x = false) {n m : Nat} : ∀ (fuel : Nat) {ps qs : List (V F)} {cs : List (Meeting F)}
    {a b : Clip F} {i ip j jp : Nat}, Both A ps qs cs a b → ps.length = n → qs.length = m → Memory a (n + n * m) → Memory b (m + n * m) →
    cs.length ≤ i * m + j → j ≤ m → ip < n → jp < m → i ≤ n → (i = n → j = 0) →
    findLoop A fuel a b i ip j jp = .error .diverge ∨
      ∃ a' b' ps' qs' cs', findLoop A fuel a b i ip j jp = .ok (a', b') ∧ Both A ps' qs' cs' a' b' ∧ ps'.length = n ∧ qs'.length = m ∧
        cs'.length ≤ n * m ∧ a'.capacity = a.capacity ∧ a'.data.length = a.data.length ∧ b'.capacity = b.capacity ∧
        b'.data.length = b.data.length
  | 0, _, _, _, _, _, _, _, _, _, _, _, _, _, _, _, _, _, _, _, _ => .inl rfl
  | fuel + 1, ps, qs, cs, a, b, i, ip, j, jp, h, hn, hm, ma, mb, hc, hj, hip, hjp, hi, hend => by
    have oa := h.a.original
    have ob := h.b.original
    have sa := h.a.size
    have sb := h.b.size
    rw [List.length_map] at sa sb
    unfold findLoop
    by_cases h1 : i < a.originalSize
    · rw [if_pos h1]
      have hmul : i * m + m ≤ n * m := by
        have : (i + 1) * m ≤ n * m := Nat.mul_le_mul_right m (by omega)
        rw [Nat.add_mul, Nat.one_mul] at this
        exact this
      by_cases h2 : j < b.originalSize
      · rw [if_pos h2]
        have g1 : ps[i]? = some (ps[i]'(by omega)) := List.getElem?_eq_getElem _
        have g2 : ps[ip]? = some (ps[ip]'(by omega)) := List.getElem?_eq_getElem _
        have g3 : qs[j]? = some (qs[j]'(by omega)) := List.getElem?_eq_getElem _
        have g4 : qs[jp]? = some (qs[jp]'(by omega)) := List.getElem?_eq_getElem _
        generalize ps[i]'(by omega) = q at g1
        generalize ps[ip]'(by omega) = p at g2
        generalize qs[j]'(by omega) = s at g3
        generalize qs[jp]'(by omega) = r at g4
        cases hf : factors A p q r s with
        | none =>
          rw [pair_miss h g1 g2 g3 g4 hf, ok_bind]
          simp only [Bool.false_eq_true, if_false]
          exact findLoop_inv hA fuel h hn hm ma mb (by omega) (by omega) hip (by omega) hi (by omega)
        | some xy =>
          obtain ⟨x, y⟩ := xy
          rw [pair_found h g1 g2 g3 g4 hf]
          cases hd : degenerate A x y
          · obtain ⟨a', b', e, B, c1, c2, c3, c4⟩ := found_ok hA h ⟨by have := ma.enough; omega, ma.exists', ma.numbered⟩
              ⟨by have := mb.enough; omega, mb.exists', mb.numbered⟩ (ip := ip) (jp := jp) (p := p) (aDir := q.minus A p) (bDir := s.minus A r)
              (show i < ps.length by omega) (show j < qs.length by omega) hd
            rw [e, ok_bind]
            simp only [Bool.false_eq_true, if_false]
            rw [← c1, ← c2, ← c3, ← c4]
            exact findLoop_inv hA fuel B hn hm ⟨by rw [c1]; exact ma.enough, by rw [c1, c2]; exact ma.exists', by rw [c1]; exact ma.numbered⟩
              ⟨by rw [c3]; exact mb.enough, by rw [c3, c4]; exact mb.exists', by rw [c3]; exact mb.numbered⟩
              (by rw [List.length_append, List.length_singleton]; omega) (by omega) hip (by omega) hi (by omega)
          · obtain ⟨a', b', ps', qs', e, B, l1, l2, -, -, c1, c2, c3, c4⟩ := found_degenerate h p (q.minus A p) (s.minus A r)
              (show i < ps.length by omega) (show ip < ps.length by omega) (show j < qs.length by omega) (show jp < qs.length by omega) hd
            rw [e, ok_bind]
            simp only [if_true]
            rw [← c1, ← c2, ← c3, ← c4]
            exact findLoop_inv hA fuel B (by omega) (by omega)
              ⟨by rw [c1]; exact ma.enough, by rw [c1, c2]; exact ma.exists', by rw [c1]; exact ma.numbered⟩
              ⟨by rw [c3]; exact mb.enough, by rw [c3, c4]; exact mb.exists', by rw [c3]; exact mb.numbered⟩
              hc hj hip hjp hi hend
      · rw [if_neg h2]
        have hjm : j = m := by omega
        subst hjm
        have : (i + 1) * j = i * j + j := by rw [Nat.add_mul, Nat.one_mul]
        exact findLoop_inv hA fuel h hn hm ma mb (by omega) (by omega) (by omega) hjp (by omega) (by omega)
    · rw [if_neg h1]
      have hin : i = n := by omega
      subst hin
      exact .inr ⟨a, b, ps, qs, cs, rfl, h, hn, hm, by have := hend rfl; omega, rfl, rfl, rfl, rfl⟩

end Tm.Poly
