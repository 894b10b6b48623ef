import Verif.Poly.ClipEmitted
import Verif.Poly.ClipPieces
import Verif.Poly.ClipMark

/-! # Clipping as a whole -/

namespace Tm.Poly
open Spec

variable {F : Type} {A : Arith F}

theorem emitLoop_none {size maxPolygons limit : Nat} {p : Polys} {has : Bool} : ∀ (rest : List Nat) (fuel : Nat) {s : Emit F}, rest.length < fuel →
    (rest ++ [0]).head? = some s.i → (rest ++ [0]).IsChain (Link s.cur) →
    (∀ y ∈ rest, y ≠ 0 ∧ ∃ v, s.cur[y]? = some v ∧ v.intersect = false) →
    emitLoop size maxPolygons limit fuel s p has = .ok ({ s with i := 0 }, p, has)
  | rest, 0, s, hf, _, _, _ => by omega
  | [], fuel + 1, s, hf, hh, _, _ => by
    have hi : s.i = 0 := (Option.some.inj hh).symm
    unfold emitLoop
    rw [if_neg (by simp [hi]), ← hi]
  | x :: rest, fuel + 1, s, hf, hh, hc, hr => by
    have hi : s.i = x := (Option.some.inj hh).symm
    obtain ⟨hx0, v, hv, hvi⟩ := hr x List.mem_cons_self
    rw [List.length_cons] at hf
    obtain ⟨y, hy⟩ : ∃ y, (rest ++ [0]).head? = some y := by cases rest <;> simp
    have hlink : Link s.cur x y ∧ (rest ++ [0]).IsChain (Link s.cur) := by
      rw [List.cons_append] at hc
      cases hrest : rest ++ [0] with
      | nil => simp at hrest
      | cons z zs =>
        rw [hrest] at hc hy
        cases hy
        rw [List.isChain_cons_cons] at hc
        exact hc
    obtain ⟨⟨⟨v', hv', hvn⟩, -⟩, hc'⟩ := hlink
    rw [hv] at hv'
    cases hv'
    unfold emitLoop
    rw [if_pos (by rw [hi]; exact hx0), hi, rd_some hv, ok_bind, if_neg (by simp [hvi])]
    exact emitLoop_none rest fuel (s := { s with i := v.next.toNat }) (by omega) (by simp only; rw [hvn]; exact hy) hc'
      fun z hz => hr z (List.mem_cons_of_mem _ hz)

theorem copyLoop_ok {data : List (CV F)} : ∀ (n j : Nat) {vertices : List (V F)}, j + n ≤ data.length → j + n ≤ vertices.length →
    ∃ vs, copyLoop data n j vertices = .ok vs ∧ vs.length = vertices.length ∧
      ∀ k, vs[k]? = if j ≤ k ∧ k < j + n then data[k]?.map (·.pos) else vertices[k]?
  | 0, j, vertices, _, _ => ⟨vertices, rfl, rfl, fun k => by rw [if_neg (by omega)]⟩
  | n + 1, j, vertices, h1, h2 => by
    unfold copyLoop
    rw [rd_ok (show j < data.length by omega), ok_bind, wr_ok (show j < vertices.length by omega), ok_bind]
    obtain ⟨vs, e, hl, hk⟩ := copyLoop_ok (data := data) n (j + 1) (vertices := vertices.set j (data[j]'(by omega)).pos) (by omega) (by simp; omega)
    refine ⟨vs, e, by rw [hl, List.length_set], fun k => ?_⟩
    rw [hk]
    by_cases hkj : k = j
    · subst hkj
      rw [if_neg (by omega), if_pos (by omega), List.getElem?_set_self (by omega), List.getElem?_eq_getElem (by omega)]
      rfl
    · by_cases hin : j + 1 ≤ k ∧ k < j + 1 + n
      · rw [if_pos hin, if_pos (by omega)]
      · rw [if_neg hin, if_neg (by omega), List.getElem?_set_ne (Ne.symm hkj)]

theorem emitWhole_ok {data : List (CV F)} {ps : List (V F)} (hps : ∀ (i : Nat) p, ps[i]? = some p → ∃ v : CV F, data[i]? = some v ∧ v.pos = p)
    {size maxPolygons : Nat} {entries : List Entry} {vertices : List (V F)} (hm : 1 ≤ maxPolygons) (he : 1 ≤ entries.length) (hs : ps.length ≤ size)
    (hv : ps.length ≤ vertices.length) :
    ∃ p vs, emitWhole data ps.length size maxPolygons ⟨entries, 0, 1⟩ 0 vertices = .ok (p, ps.length, vs) ∧
      vs.length = vertices.length ∧ (∀ (i : Nat) q, ps[i]? = some q → vs[i]? = some q) ∧
      ∃ p', close p ps.length = .ok p' ∧ p'.count = 1 ∧ p'.entries.length = entries.length ∧ p'.entries[0]? = some (⟨0, ps.length⟩ : Entry) := by
  unfold emitWhole openPoly
  rw [assert_ok (by simpa using hm), ok_bind]
  dsimp only
  rw [change_ok (List.getElem?_eq_getElem (show 0 < entries.length by omega)), ok_bind]
  rw [ok_bind]
  have hn : (if size > ps.length then ps.length else size) = ps.length := by split <;> omega
  rw [hn]
  have hd : 0 + ps.length ≤ data.length := by
    by_cases h0 : ps = []
    · simp [h0]
    · have := List.length_pos_iff.2 h0
      obtain ⟨v, h, -⟩ := hps (ps.length - 1) _ (List.getElem?_eq_getElem (by omega))
      have := (List.getElem?_eq_some_iff.1 h).1
      omega
  obtain ⟨vs, e, hl, hk⟩ := copyLoop_ok (data := data) ps.length 0 (vertices := vertices) hd (by omega)
  rw [e, ok_bind]
  refine ⟨_, vs, rfl, hl, fun i q hq => ?_, ?_⟩
  · have := (List.getElem?_eq_some_iff.1 hq).1
    rw [hk, if_pos (by omega)]
    obtain ⟨v, h, h'⟩ := hps i q hq
    rw [h, ← h']
    rfl
  · unfold close
    rw [if_pos (by simp)]
    dsimp only
    rw [change_ok (List.getElem?_set_self (show 0 < entries.length by omega)), ok_bind]
    refine ⟨_, rfl, rfl, by simp, ?_⟩
    simp only
    rw [List.getElem?_set_self (by simp; omega)]
    simp

theorem prepared_pos {m : Nat} {ps : List (V F)} {cs : List (Crossing F)} {vs vs' : Clip F} (hP : Prepared A m ps cs vs) {ring : List Nat}
    (T : Tour A vs.data ps.length cs ring) {inside : Bool} (M : Marked ps.length ring inside vs vs') (i : Nat) (p : V F) (h : ps[i]? = some p) :
    ∃ v : CV F, vs'.data[i]? = some v ∧ v.pos = p := by
  have hi := (List.getElem?_eq_some_iff.1 h).1
  obtain ⟨v, e, h1, h2⟩ := marked_get hP T M (x := i) (by omega)
  obtain ⟨w, g1, g2, -⟩ := hP.corner i p h
  rw [h1] at g1
  cases g1
  exact ⟨_, h2, g2⟩

/-- Marking of both polygons. -/
theorem mark_ok {ps qs : List (V F)} {cs : List (Meeting F)} {a b : Clip F} (h : Both A ps qs cs a b) {ra rb : List Nat}
    (Ta : Tour A a.data ps.length (cs.map Meeting.onA) ra) (Tb : Tour A b.data qs.length (cs.map Meeting.onB) rb) {p0 q0 : V F}
    (hp : ps[0]? = some p0) (hq : qs[0]? = some q0) (la : a.size ≤ a.data.length) (lb : b.size ≤ b.data.length) {ia ib : Bool}
    (hia : ia = decide ((hits A qs p0 0 qs.length).length % 2 = 1)) (hib : ib = decide ((hits A ps q0 0 ps.length).length % 2 = 1))
    (aBackward bBackward : Bool) :
    ∃ a' b', mark A a b aBackward bBackward = .ok (a', b') ∧ Marked ps.length ra (ia != aBackward) a a' ∧
      Marked qs.length rb (ib != bBackward) b b' := by
  have hqs : ∀ (i : Nat) q, qs[i]? = some q → ∃ v : CV F, b.data[i]? = some v ∧ v.pos = q := fun i q hi => by
    obtain ⟨v, h1, h2, -⟩ := h.b.corner i q hi
    exact ⟨v, h1, h2⟩
  obtain ⟨a', e1, Ma⟩ := markSingle_ok h.a Ta hp la (pointInside_ok h.b.original hqs p0) aBackward
  have hps := prepared_pos h.a Ta Ma
  obtain ⟨b', e2, Mb⟩ := markSingle_ok h.b Tb hq lb (pointInside_ok (vs := a') (by rw [Ma.originalSize, h.a.original]) hps q0) bBackward
  unfold mark
  rw [e1, ok_bind, e2, ok_bind]
  exact ⟨a', b', rfl, by rw [hia]; exact Ma, by rw [hib]; exact Mb⟩

/-- What is emitted if there are no crossings. -/
theorem emitted_none {ps qs : List (V F)} {a b a' b' : Clip F} (h : Both A ps qs [] a b) {ra rb : List Nat}
    (Ta : Tour A a.data ps.length [] ra) (Tb : Tour A b.data qs.length [] rb) {ja jb : Bool}
    (Ma : Marked ps.length ra ja a a') (Mb : Marked qs.length rb jb b b') {p0 q0 : V F} (hp : ps[0]? = some p0) (hq : qs[0]? = some q0)
    {ia ib : Bool}
    (hia : ia = decide ((hits A qs p0 0 qs.length).length % 2 = 1)) (hib : ib = decide ((hits A ps q0 0 ps.length).length % 2 = 1))
    {limit maxPolygons maxCount : Nat} {entries : List Entry} {vertices : List (V F)} (hmp : 1 ≤ maxPolygons) (hel : 1 ≤ entries.length)
    (hmc : ps.length ≤ maxCount) (hmc' : qs.length ≤ maxCount) (hvl : maxCount ≤ vertices.length) :
    ∃ e, emitClipped A limit a' b' entries maxPolygons vertices maxCount = .ok e ∧
      Output ps qs [] (if ia then [(List.range ps.length).map Pt.a] else if ib then [(List.range qs.length).map Pt.b] else []) e ∧
      e.entries.length = entries.length ∧ e.vertices.length = vertices.length := by
  have hn : 0 < ps.length := (List.getElem?_eq_some_iff.1 hp).1
  have hm : 0 < qs.length := (List.getElem?_eq_some_iff.1 hq).1
  have hPa : Prepared A qs.length ps [] a := h.a
  have hPb : Prepared A ps.length qs [] b := h.b
  -- the loop goes around
  obtain ⟨hr0, hrc⟩ := Ta.closed
  have hrnd : ra.Nodup := Ta.all.nodup_iff.2 List.nodup_range
  obtain ⟨t, rfl⟩ : ∃ t, ra = 0 :: t := by
    cases ra with
    | nil => simp at hr0
    | cons x t =>
      simp at hr0
      exact ⟨t, by rw [hr0]⟩
  have hmem : ∀ y ∈ 0 :: t, y < ps.length := fun y hy => by simpa using List.mem_range.1 (Ta.all.subset hy)
  have hlink : ∀ x y, Link a.data x y → x < ps.length → y < ps.length → Link a'.data x y := by
    rintro x y ⟨⟨v, h1, h2⟩, w, h3, h4⟩ hx hy
    obtain ⟨v', e, g1, g2⟩ := marked_get hPa Ta Ma (x := x) (by simpa using hx)
    obtain ⟨w', e', g3, g4⟩ := marked_get hPa Ta Ma (x := y) (by simpa using hy)
    rw [h1] at g1
    cases g1
    rw [h3] at g3
    cases g3
    exact ⟨⟨_, g2, h2⟩, _, g4, h4⟩
  have hchain : (0 :: t ++ [0]).IsChain (Link a'.data) := by
    rw [chain_edges] at hrc ⊢
    intro e he
    obtain ⟨pre, post, e'⟩ := mem_edges.1 (show (e.1, e.2) ∈ _ from he)
    have h1 : e.1 ∈ 0 :: t ++ [0] := by rw [e']; simp
    have h2 : e.2 ∈ 0 :: t ++ [0] := by rw [e']; simp
    refine hlink _ _ (hrc e he) (hmem _ ?_) (hmem _ ?_)
    · simp only [List.cons_append, List.mem_cons, List.mem_append, List.not_mem_nil, or_false] at h1 ⊢
      tauto
    · simp only [List.cons_append, List.mem_cons, List.mem_append, List.not_mem_nil, or_false] at h2 ⊢
      tauto
  obtain ⟨y, hy⟩ : ∃ y, (t ++ [0]).head? = some y := by cases t <;> simp
  have hfirst : Link a'.data 0 y ∧ (t ++ [0]).IsChain (Link a'.data) := by
    rw [List.cons_append] at hchain
    cases hrest : t ++ [0] with
    | nil => simp at hrest
    | cons z zs =>
      rw [hrest] at hchain hy
      cases hy
      rw [List.isChain_cons_cons] at hchain
      exact hchain
  obtain ⟨⟨⟨v0, hv0, hn0⟩, -⟩, hct⟩ := hfirst
  have hint : ∀ x < ps.length, ∃ v, a'.data[x]? = some v ∧ v.intersect = false := by
    intro x hx
    obtain ⟨v, e, h1, h2⟩ := marked_get hPa Ta Ma (x := x) (by simpa using hx)
    obtain ⟨w, g1, -, g2, -⟩ := hPa.corner x _ (List.getElem?_eq_getElem hx)
    rw [h1] at g1
    cases g1
    exact ⟨_, h2, g2⟩
  have htlen : t.length + 1 ≤ a'.data.length := by
    have hsz : (0 :: t).length = ps.length := by rw [Ta.all.length_eq, List.length_range]; rfl
    obtain ⟨v, h2, -⟩ := hint (ps.length - 1) (by omega)
    have := (List.getElem?_eq_some_iff.1 h2).1
    rw [List.length_cons] at hsz
    omega
  have hloop := emitLoop_none (size := maxCount) (maxPolygons := maxPolygons) (limit := limit) (p := ⟨entries, 0, 1⟩) (has := false) t (a'.data.length + 1)
    (s := ⟨a'.data, b'.data, false, v0.next.toNat, 0, vertices⟩) (by omega) (by simp only; rw [hn0]; exact hy) hct
    (fun z hz => ⟨by
      rintro rfl
      exact (List.nodup_cons.1 hrnd).1 hz, hint z (hmem z (List.mem_cons_of_mem _ hz))⟩)
  have hasz : a'.size = ps.length := by rw [Ma.size, hPa.size]; rfl
  have hbsz : b'.size = qs.length := by rw [Mb.size, hPb.size]; rfl
  have hao : a'.originalSize = ps.length := by rw [Ma.originalSize, hPa.original]
  have hbo : b'.originalSize = qs.length := by rw [Mb.originalSize, hPb.original]
  have hps := prepared_pos hPa Ta Ma
  have hqs := prepared_pos hPb Tb Mb
  obtain ⟨a0, ha0, ha0p⟩ := hps 0 p0 hp
  obtain ⟨b0, hb0, hb0p⟩ := hqs 0 q0 hq
  have inA : pointInside A b' a0.pos = .ok ia := by rw [ha0p, hia]; exact pointInside_ok hbo hqs p0
  have inB : pointInside A a' b0.pos = .ok ib := by rw [hb0p, hib]; exact pointInside_ok hao hps q0
  unfold emitClipped
  rw [if_neg (by omega), rd_some hv0, ok_bind, hloop, ok_bind]
  unfold emitRest
  dsimp only
  rw [if_neg (by simp)]
  unfold emitInside
  dsimp only
  rw [rd_some ha0, ok_bind, inA, ok_bind]
  cases ia with
  | true =>
    rw [if_pos rfl, if_pos rfl, hao]
    obtain ⟨p, vs, e1, hl, hpos, p', e2, hc, hel', he0⟩ := emitWhole_ok hps hmp hel hmc (show ps.length ≤ vertices.length by omega)
    rw [e1, ok_bind]
    dsimp only
    rw [e2, ok_bind]
    refine ⟨_, rfl, ⟨by simpa using hc, by simp, ?_, ?_⟩, hel', hl⟩
    · intro i poly hi
      have : i = 0 := by
        have := (List.getElem?_eq_some_iff.1 hi).1
        simp at this
        exact this
      subst this
      simp at hi
      subst hi
      simpa using he0
    · intro i p hi
      simp only [List.flatten_cons, List.flatten_nil, List.append_nil, List.getElem?_map] at hi
      by_cases hin : i < ps.length
      · rw [List.getElem?_range hin] at hi
        cases hi
        refine ⟨_, hpos i _ (List.getElem?_eq_getElem hin), ?_⟩
        simp [At, hin]
      · rw [List.getElem?_eq_none (by simp; omega)] at hi
        cases hi
  | false =>
    simp only [Bool.false_eq_true, if_false]
    rw [if_neg (by omega), rd_some hb0, ok_bind, inB, ok_bind]
    cases ib with
    | true =>
      rw [if_pos rfl, if_pos rfl, hbo]
      obtain ⟨p, vs, e1, hl, hpos, p', e2, hc, hel', he0⟩ := emitWhole_ok hqs hmp hel hmc' (show qs.length ≤ vertices.length by omega)
      rw [e1, ok_bind]
      dsimp only
      rw [e2, ok_bind]
      refine ⟨_, rfl, ⟨by simpa using hc, by simp, ?_, ?_⟩, hel', hl⟩
      · intro i poly hi
        have : i = 0 := by
          have := (List.getElem?_eq_some_iff.1 hi).1
          simp at this
          exact this
        subst this
        simp at hi
        subst hi
        simpa using he0
      · intro i p hi
        simp only [List.flatten_cons, List.flatten_nil, List.append_nil, List.getElem?_map] at hi
        by_cases hin : i < qs.length
        · rw [List.getElem?_range hin] at hi
          cases hi
          refine ⟨_, hpos i _ (List.getElem?_eq_getElem hin), ?_⟩
          simp [At, hin]
        · rw [List.getElem?_eq_none (by simp; omega)] at hi
          cases hi
    | false =>
      simp only [Bool.false_eq_true, if_false]
      rw [ok_bind]
      dsimp only
      unfold close
      rw [if_neg (by simp), ok_bind]
      exact ⟨_, rfl, ⟨rfl, rfl, fun i poly hi => by simp at hi, fun i p hi => by simp at hi⟩, rfl, rfl⟩

/-- A rational number of the arithmetic. -/
def X.val : X → ℚ
  | .fin q => q
  | _ => 0

/-- The crossings on the first polygon. -/
theorem crossingsA {ps qs : List (V ℚ)} (hg : General ps qs) {cs : List (Meeting X)} (hcs : ∀ c, c ∈ cs ↔ Meets ps qs c)
    (hpw : cs.Pairwise (fun c d => Before (c.i, c.j) (d.i, d.j))) :
    Crossings ps qs (cs.map fun c => (c.i, c.j, c.aAlpha.val)) ∧ Stored (cs.map Meeting.onA) (cs.map fun c => (c.i, c.j, c.aAlpha.val)) := by
  refine ⟨⟨fun i j x => ?_, ?_, ?_⟩, ?_⟩
  · simp only [List.mem_map, Prod.mk.injEq]
    constructor
    · rintro ⟨c, hc, rfl, rfl, rfl⟩
      obtain ⟨p, q, r, s, x, y, h1, h2, h3, -, h4, -⟩ := (hcs c).1 hc
      rw [h4]
      exact ⟨p, q, r, s, y, h1, h2, h3⟩
    · rintro ⟨p, q, r, s, y, h1, h2, h3⟩
      exact ⟨⟨i, j, ⟨.fin (p.x + x * (q.x - p.x)), .fin (p.y + x * (q.y - p.y))⟩, .fin x, .fin y⟩,
        (hcs _).2 ⟨p, q, r, s, x, y, h1, h2, h3, rfl, rfl, rfl⟩, rfl, rfl, rfl⟩
  · rw [List.map_map]
    unfold List.Nodup
    rw [List.pairwise_map]
    refine hpw.imp fun {c d} h e => ?_
    simp only [Function.comp_apply, Prod.mk.injEq] at e
    unfold Before at h
    simp only at h
    omega
  · intro i j p q r s h1 h2 x y h
    obtain ⟨g1, -, -, g2, g3, g4, g5⟩ := hg i j p q r s x y h1 h2 h
    exact ⟨g1, by linarith, by linarith, by linarith, by linarith⟩
  · unfold Stored
    rw [List.forall₂_map_left_iff, List.forall₂_map_right_iff, List.forall₂_same]
    intro c hc
    obtain ⟨p, q, r, s, x, y, h1, h2, h3, -, h4, -⟩ := (hcs c).1 hc
    exact ⟨rfl, by rw [h4]; exact h4⟩

theorem common_flip {p q r s : V ℚ} {x y : ℚ} (h : Common p q r s x y) : Common r s p q y x := ⟨h.y0, h.y1, h.x0, h.x1, h.ex.symm, h.ey.symm⟩

/-- The crossings on the second polygon. -/
theorem crossingsB {ps qs : List (V ℚ)} (hg : General ps qs) {cs : List (Meeting X)} (hcs : ∀ c, c ∈ cs ↔ Meets ps qs c)
    (hpw : cs.Pairwise (fun c d => Before (c.i, c.j) (d.i, d.j))) :
    Crossings qs ps (cs.map fun c => (c.j, c.i, c.bAlpha.val)) ∧ Stored (cs.map Meeting.onB) (cs.map fun c => (c.j, c.i, c.bAlpha.val)) := by
  refine ⟨⟨fun i j x => ?_, ?_, ?_⟩, ?_⟩
  · simp only [List.mem_map, Prod.mk.injEq]
    constructor
    · rintro ⟨c, hc, rfl, rfl, rfl⟩
      obtain ⟨p, q, r, s, x, y, h1, h2, h3, -, -, h4⟩ := (hcs c).1 hc
      rw [h4]
      exact ⟨r, s, p, q, x, h2, h1, common_flip h3⟩
    · rintro ⟨p, q, r, s, y, h1, h2, h3⟩
      exact ⟨⟨j, i, ⟨.fin (r.x + y * (s.x - r.x)), .fin (r.y + y * (s.y - r.y))⟩, .fin y, .fin x⟩,
        (hcs _).2 ⟨r, s, p, q, y, x, h2, h1, common_flip h3, rfl, rfl, rfl⟩, rfl, rfl, rfl⟩
  · rw [List.map_map]
    unfold List.Nodup
    rw [List.pairwise_map]
    refine hpw.imp fun {c d} h e => ?_
    simp only [Function.comp_apply, Prod.mk.injEq] at e
    unfold Before at h
    simp only at h
    omega
  · intro i j p q r s h1 h2 x y h
    obtain ⟨g1, -, -, g2, g3, g4, g5⟩ := hg j i r s p q y x h2 h1 (common_flip h)
    refine ⟨fun e => g1 ?_, by linarith, by linarith, by linarith, by linarith⟩
    unfold turn at e ⊢
    linarith
  · unfold Stored
    rw [List.forall₂_map_left_iff, List.forall₂_map_right_iff, List.forall₂_same]
    intro c hc
    obtain ⟨p, q, r, s, x, y, h1, h2, h3, -, -, h4⟩ := (hcs c).1 hc
    exact ⟨rfl, by rw [h4]; exact h4⟩

end Tm.Poly
