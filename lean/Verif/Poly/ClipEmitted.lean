import Verif.Poly.ClipEmit

/-! # Emitting the clipped polygons -/

namespace Tm.Poly
open Spec

variable {F : Type} {A : Arith F}

/-- The point of a vertex. -/
def place (d : V F) (ps qs : List (V F)) (cs : List (Meeting F)) : Pt → V F
  | .a i => ps[i]?.getD d
  | .b j => qs[j]?.getD d
  | .x k => (cs[k]?.map (·.pos)).getD d

theorem marked_get {m : Nat} {ps : List (V F)} {cs : List (Crossing F)} {vs vs' : Clip F} (hP : Prepared A m ps cs vs) {ring : List Nat}
    (T : Tour A vs.data ps.length cs ring) {inside : Bool} (M : Marked ps.length ring inside vs vs') {x : Nat} (hx : x < ps.length + cs.length) :
    ∃ v e, vs.data[x]? = some v ∧ vs'.data[x]? = some { v with exit := e } := by
  have hm : x ∈ ring := T.all.symm.subset (List.mem_range.2 hx)
  obtain ⟨pre, post, e⟩ := List.append_of_mem hm
  by_cases h : x < ps.length
  · obtain ⟨v, h1, -⟩ := hP.corner x _ (List.getElem?_eq_getElem h)
    exact ⟨v, _, h1, M.marks pre x post v e h1⟩
  · obtain ⟨v, h1, -⟩ := hP.crossing (x - ps.length) _ (List.getElem?_eq_getElem (show x - ps.length < cs.length by omega))
    rw [show ps.length + (x - ps.length) = x by omega] at h1
    exact ⟨v, _, h1, M.marks pre x post v e h1⟩

theorem near_map (nn : Bool → Nat) (s : Bool) (l : List Nat) (u v : Pt) : Near (edges (l.map (pt s (nn s)))) u v ↔
    ∃ x y, (x, y) ∈ edges l ∧ (u = pt s (nn s) x ∧ v = pt s (nn s) y ∨ u = pt s (nn s) y ∧ v = pt s (nn s) x) := by
  unfold Near
  rw [edges_map]
  simp only [List.mem_map, Prod.exists, Prod.map_apply, Prod.mk.injEq]
  constructor
  · rintro (⟨x, y, h, rfl, rfl⟩ | ⟨x, y, h, rfl, rfl⟩)
    · exact ⟨x, y, h, .inl ⟨rfl, rfl⟩⟩
    · exact ⟨x, y, h, .inr ⟨rfl, rfl⟩⟩
  · rintro ⟨x, y, h, ⟨rfl, rfl⟩ | ⟨rfl, rfl⟩⟩
    · exact .inl ⟨x, y, h, rfl, rfl⟩
    · exact .inr ⟨x, y, h, rfl, rfl⟩

variable {nn : Bool → Nat} {N : Nat} {D : Bool → List (CV F)} {P : Bool → List Pass} {pos : Pt → V F}

theorem arcs_pieces (W : World nn N D P pos) (u v : Pt) :
    (∃ s w l w' b, w < N ∧ Arc nn P s w l w' b ∧ Near (edges (arcPts nn s w l w')) u v) ↔
    ∃ s x y, (∃ p ∈ P s, (x, y) ∈ edges (p.a :: p.ins ++ [p.b])) ∧ (u = pt s (nn s) x ∧ v = pt s (nn s) y ∨ u = pt s (nn s) y ∧ v = pt s (nn s) x) := by
  have key : ∀ s p, p ∈ P s → ∃ w w', w < N ∧ Arc nn P s w p.ins w' false ∧ arcPts nn s w p.ins w' = (p.a :: p.ins ++ [p.b]).map (pt s (nn s)) := by
    intro s p hp
    have ha := (W.way s).a p hp
    have hb := (W.way s).b p hp
    have hst : Step (P s) p.a p.ins p.b false := ⟨p, hp, .inl ⟨rfl, rfl, rfl, rfl⟩⟩
    have hlt : p.a < nn s + N := ((W.way s).mem p.a).1 (List.mem_flatMap.2 ⟨p, hp, by simp [Pass.flat]⟩)
    refine ⟨p.a - nn s, p.b - nn s, by omega, ?_, ?_⟩
    · unfold Arc
      rw [show nn s + (p.a - nn s) = p.a by omega, show nn s + (p.b - nn s) = p.b by omega]
      exact hst
    · unfold arcPts
      have e1 : pt s (nn s) p.a = .x (p.a - nn s) := by unfold pt; rw [if_neg (by omega)]
      have e2 : pt s (nn s) p.b = .x (p.b - nn s) := by unfold pt; rw [if_neg (by omega)]
      simp [e1, e2]
  constructor
  · rintro ⟨s, w, l, w', b, hw, ⟨p, hp, h⟩, hn⟩
    obtain ⟨z, z', hz, har, he⟩ := key s p hp
    have : Near (edges ((p.a :: p.ins ++ [p.b]).map (pt s (nn s)))) u v := by
      rw [← he]
      have ha := (W.way s).a p hp
      have hb := (W.way s).b p hp
      have e1 : pt s (nn s) p.a = .x (p.a - nn s) := by unfold pt; rw [if_neg (by omega)]
      have e2 : pt s (nn s) p.b = .x (p.b - nn s) := by unfold pt; rw [if_neg (by omega)]
      rcases h with ⟨-, h1, rfl, h2⟩ | ⟨-, h1, rfl, h2⟩
      · rw [he]
        have : arcPts nn s w p.ins w' = (p.a :: p.ins ++ [p.b]).map (pt s (nn s)) := by
          unfold arcPts
          rw [show w = p.a - nn s by omega, show w' = p.b - nn s by omega]
          simp [e1, e2]
        rw [← this]
        exact hn
      · rw [he, ← near_reverse]
        have : arcPts nn s w p.ins.reverse w' = ((p.a :: p.ins ++ [p.b]).map (pt s (nn s))).reverse := by
          unfold arcPts
          rw [show w = p.b - nn s by omega, show w' = p.a - nn s by omega]
          simp [e1, e2]
        rw [← this]
        exact hn
    rw [near_map] at this
    obtain ⟨x, y, h1, h2⟩ := this
    exact ⟨s, x, y, ⟨p, hp, h1⟩, h2⟩
  · rintro ⟨s, x, y, ⟨p, hp, h1⟩, h2⟩
    obtain ⟨w, w', hw, har, he⟩ := key s p hp
    refine ⟨s, w, p.ins, w', false, hw, har, ?_⟩
    rw [he, near_map]
    exact ⟨x, y, h1, h2⟩

theorem state_piece {n : Nat} {ring : List Nat} (hn : ring.Nodup) {inside : Bool} {x y : Nat} :
    InsidePiece n ring inside x y ↔ (x, y) ∈ sides ring ∧ state n inside ring x = true := by
  constructor
  · rintro ⟨h, pre, post, e, hs⟩
    exact ⟨h, by rw [state_split hn e]; exact hs⟩
  · rintro ⟨h, hs⟩
    obtain ⟨pre, post, e⟩ := List.append_of_mem (List.of_mem_zip h).1
    exact ⟨h, pre, post, e, by rw [← state_split hn e]; exact hs⟩

theorem emitted {ps qs : List (V F)} {cs : List (Meeting F)} {a b a' b' : Clip F} (h : Both A ps qs cs a b) {ra rb : List Nat}
    (Ta : Tour A a.data ps.length (cs.map Meeting.onA) ra) (Tb : Tour A b.data qs.length (cs.map Meeting.onB) rb) {ia ib : Bool}
    (Ma : Marked ps.length ra ia a a') (Mb : Marked qs.length rb ib b b') (hp : 0 < ps.length) (hq : 0 < qs.length)
    (heven : cs.length % 2 = 0) (hne : cs ≠ []) {limit maxPolygons maxCount : Nat} {entries : List Entry} {vertices : List (V F)}
    (hlimit : cs.length ≤ limit) (hmp : cs.length ≤ 2 * maxPolygons) (hel : maxPolygons ≤ entries.length)
    (hmc : ps.length + qs.length + cs.length ≤ maxCount) (hvl : maxCount ≤ vertices.length) :
    ∃ polys e, emitClipped A limit a' b' entries maxPolygons vertices maxCount = .ok e ∧
      Pieces ps.length qs.length cs.length ra rb ia ib polys ∧ Output ps qs cs polys e ∧
      e.entries.length = entries.length ∧ e.vertices.length = vertices.length := by
  have hneA : cs.map Meeting.onA ≠ [] := by simpa using hne
  have hneB : cs.map Meeting.onB ≠ [] := by simpa using hne
  have hN : 0 < cs.length := List.length_pos_iff.2 hne
  obtain ⟨PA, WA, eA⟩ := way_of h.a Ta Ma hp (by simpa using heven) hneA
  obtain ⟨PB, WB, eB⟩ := way_of h.b Tb Mb hq (by simpa using heven) hneB
  rw [List.length_map] at WA WB
  let nn : Bool → Nat := fun s => if s then qs.length else ps.length
  let D : Bool → List (CV F) := fun s => if s then b'.data else a'.data
  let P : Bool → List Pass := fun s => if s then PB else PA
  have W : World nn cs.length D P (place (ps[0]) ps qs cs) := by
    refine ⟨fun s => ?_, fun s k hk => ?_, fun s y hy v hv => ?_⟩
    · cases s
      · exact WA
      · exact WB
    · cases s
      · obtain ⟨v, e, h1, h2⟩ := marked_get h.a Ta Ma (x := ps.length + k) (by simpa using hk)
        obtain ⟨w, g1, -, -, g2, -⟩ := h.a.crossing k _ (List.getElem?_eq_getElem (show k < (cs.map Meeting.onA).length by simpa using hk))
        rw [h1] at g1
        cases g1
        exact ⟨_, h2, g2⟩
      · obtain ⟨v, e, h1, h2⟩ := marked_get h.b Tb Mb (x := qs.length + k) (by simpa using hk)
        obtain ⟨w, g1, -, -, g2, -⟩ := h.b.crossing k _ (List.getElem?_eq_getElem (show k < (cs.map Meeting.onB).length by simpa using hk))
        rw [h1] at g1
        cases g1
        exact ⟨_, h2, g2⟩
    · cases s
      · obtain ⟨w, e, h1, h2⟩ := marked_get h.a Ta Ma (x := y) (by rw [List.length_map]; exact hy)
        change a'.data[y]? = some v at hv
        rw [h2] at hv
        cases hv
        change w.pos = place _ _ _ _ (pt false ps.length y)
        change y < ps.length + cs.length at hy
        unfold pt
        by_cases hy' : y < ps.length
        · rw [if_pos hy']
          obtain ⟨w', g1, g2, -⟩ := h.a.corner y _ (List.getElem?_eq_getElem hy')
          rw [h1] at g1
          cases g1
          simp [place, hy', g2]
        · rw [if_neg hy']
          have hy2 : y - ps.length < cs.length := by omega
          obtain ⟨w', g1, g2, -⟩ := h.a.crossing (y - ps.length) (cs[y - ps.length]).onA (by simp [hy2])
          rw [show ps.length + (y - ps.length) = y by omega, h1] at g1
          cases g1
          simp [place, hy2, g2, Meeting.onA]
      · obtain ⟨w, e, h1, h2⟩ := marked_get h.b Tb Mb (x := y) (by rw [List.length_map]; exact hy)
        change b'.data[y]? = some v at hv
        rw [h2] at hv
        cases hv
        change w.pos = place _ _ _ _ (pt true qs.length y)
        change y < qs.length + cs.length at hy
        unfold pt
        by_cases hy' : y < qs.length
        · rw [if_pos hy']
          obtain ⟨w', g1, g2, -⟩ := h.b.corner y _ (List.getElem?_eq_getElem hy')
          rw [h1] at g1
          cases g1
          simp [place, hy', g2]
        · rw [if_neg hy']
          have hy2 : y - qs.length < cs.length := by omega
          obtain ⟨w', g1, g2, -⟩ := h.b.crossing (y - qs.length) (cs[y - qs.length]).onB (by simp [hy2])
          rw [show qs.length + (y - qs.length) = y by omega, h1] at g1
          cases g1
          simp [place, hy2, g2, Meeting.onB]
  -- the ring of the first polygon
  obtain ⟨hr0, hrc⟩ := Ta.closed
  have hrnd : ra.Nodup := Ta.all.nodup_iff.2 List.nodup_range
  obtain ⟨t, rfl⟩ : ∃ t, ra = 0 :: t := by
    cases ra with
    | nil => simp at hr0
    | cons x t =>
      simp at hr0
      exact ⟨t, by rw [hr0]⟩
  have hlink : ∀ x y, Link a.data x y → x < ps.length + cs.length → y < ps.length + cs.length → Link a'.data x y := by
    rintro x y ⟨⟨v, h1, h2⟩, w, h3, h4⟩ hx hy
    obtain ⟨v', e, g1, g2⟩ := marked_get h.a Ta Ma (x := x) (by simpa using hx)
    obtain ⟨w', e', g3, g4⟩ := marked_get h.a Ta Ma (x := y) (by simpa using hy)
    rw [h1] at g1
    cases g1
    rw [h3] at g3
    cases g3
    exact ⟨⟨_, g2, h2⟩, _, g4, h4⟩
  have hmem : ∀ y ∈ 0 :: t, y < ps.length + cs.length := fun y hy => by simpa using List.mem_range.1 (Ta.all.subset hy)
  have hchain : (0 :: t ++ [0]).IsChain (Link a'.data) := by
    rw [chain_edges] at hrc ⊢
    intro e he
    obtain ⟨pre, post, e'⟩ := mem_edges.1 (show (e.1, e.2) ∈ _ from he)
    have h1 : e.1 ∈ 0 :: t ++ [0] := by rw [e']; simp
    have h2 : e.2 ∈ 0 :: t ++ [0] := by rw [e']; simp
    refine hlink _ _ (hrc e he) (hmem _ ?_) (hmem _ ?_)
    · simp only [List.cons_append, List.mem_cons, List.mem_append, List.not_mem_nil, or_false] at h1 ⊢
      tauto
    · simp only [List.cons_append, List.mem_cons, List.mem_append, List.not_mem_nil, or_false] at h2 ⊢
      tauto
  obtain ⟨y, hy⟩ : ∃ y, (t ++ [0]).head? = some y := by cases t <;> simp
  have hfirst : Link a'.data 0 y ∧ (t ++ [0]).IsChain (Link a'.data) := by
    rw [List.cons_append] at hchain
    cases hrest : t ++ [0] with
    | nil => simp at hrest
    | cons z zs =>
      rw [hrest] at hchain hy
      cases hy
      rw [List.isChain_cons_cons] at hchain
      exact hchain
  obtain ⟨⟨⟨v0, hv0, hn0⟩, -⟩, hct⟩ := hfirst
  have htlen : t.length + 1 ≤ a'.data.length := by
    have hsz : (0 :: t).length = ps.length + cs.length := by rw [Ta.all.length_eq, List.length_range, List.length_map]
    obtain ⟨v, e, -, h2⟩ := marked_get h.a Ta Ma (x := ps.length + cs.length - 1) (by rw [List.length_map]; omega)
    have := (List.getElem?_eq_some_iff.1 h2).1
    rw [List.length_cons] at hsz
    omega
  -- the loop
  have hE : Emitting nn cs.length P [] ([] : List (List Pt)) := by
    refine ⟨⟨by simp, by simp, by simp, by simp, by simp⟩, List.nodup_nil, by simp, by simp, by simp, fun u v => by simp⟩
  have hM : Mem nn cs.length D (place (ps[0]) ps qs cs) (· ∈ ([] : List Nat)) ⟨a'.data, b'.data, false, v0.next.toNat, 0, vertices⟩
      ([] : List (List Pt)).flatten vertices.length := by
    refine ⟨fun c => ?_, rfl, by simp, rfl, fun k hk => ?_⟩
    · cases c
      · exact rfl
      · exact rfl
    · unfold dataOf
      rw [if_pos rfl]
      obtain ⟨v, e, h1, h2⟩ := marked_get h.a Ta Ma (x := ps.length + k) (by simpa using hk)
      obtain ⟨w, g1, -, -, -, -, -, g2⟩ := h.a.crossing k _ (List.getElem?_eq_getElem (show k < (cs.map Meeting.onA).length by simpa using hk))
      rw [h1] at g1
      cases g1
      change (a'.data[ps.length + k]?.map (·.processed) = some true) ↔ _
      rw [h2]
      simp [g2]
  have hL : Listed ⟨entries, 0, 1⟩ ([] : List (List Pt)) entries.length := ⟨rfl, rfl, by simp, fun i hi => by simp at hi⟩
  have ht : ∀ y ∈ t, y ≠ 0 ∧ y < nn false + cs.length := fun y hy => ⟨by
    rintro rfl
    exact (List.nodup_cons.1 hrnd).1 hy, hmem y (List.mem_cons_of_mem _ hy)⟩
  obtain ⟨s', p', Ks, polys, e1, hE', hM', hL', hall⟩ := emitLoop_ok W (size := maxCount) (len := vertices.length) (maxPolygons := maxPolygons)
    (elen := entries.length) (limit := limit) hmc hvl hmp hel hlimit t (a'.data.length + 1) (by omega) hE hM hL rfl (by simp only; rw [hn0]; exact hy)
    hct ht (fun k hk => by
      left
      have : ps.length + k ∈ 0 :: t := Ta.all.symm.subset (List.mem_range.2 (by simpa using hk))
      rcases List.mem_cons.1 this with h | h
      · omega
      · exact h)
  have hpne : polys ≠ [] := by
    rintro rfl
    have := (hE'.done.crossing 0).2 (hall 0 hN)
    simp at this
  obtain ⟨p2, ep2, hS⟩ := close_ok hL' hM'.put
  have hasz : a'.size = ps.length + cs.length := by rw [Ma.size, h.a.size, List.length_map]
  refine ⟨polys, ⟨p2.entries, s'.vertices, p2.count, BitVec.ofNat 16 s'.put⟩, ?_, ?_, ⟨hS.count, ?_, hS.entry, ?_⟩, hS.length, hM'.len⟩
  · unfold emitClipped
    rw [if_neg (by omega), rd_some hv0, ok_bind]
    rw [show (decide (([] : List (List Pt)) ≠ [])) = false by simp] at e1
    rw [e1, ok_bind]
    unfold emitRest
    dsimp only
    rw [if_pos (by simpa using hpne), ok_bind]
    dsimp only
    rw [ep2, ok_bind]
  · refine ⟨hE'.done.nodup, hE'.nonempty, fun k => ?_, fun u v => ?_⟩
    · rw [hE'.done.crossing]
      exact ⟨hE'.lt k, hall k⟩
    · have h1 := hE'.edge u v
      unfold Near at h1
      rw [h1]
      have h2 := arcs_pieces W u v
      have h3 : (∃ s w l w' b, w ∈ Ks ∧ Arc nn P s w l w' b ∧ Near (edges (arcPts nn s w l w')) u v) ↔
          ∃ s w l w' b, w < cs.length ∧ Arc nn P s w l w' b ∧ Near (edges (arcPts nn s w l w')) u v := by
        constructor
        · rintro ⟨s, w, l, w', b, h, r⟩
          exact ⟨s, w, l, w', b, hE'.lt w h, r⟩
        · rintro ⟨s, w, l, w', b, h, r⟩
          exact ⟨s, w, l, w', b, hall w h, r⟩
      rw [show (∃ s w l w' b, w ∈ Ks ∧ Arc nn P s w l w' b ∧ ((u, v) ∈ edges (arcPts nn s w l w') ∨ (v, u) ∈ edges (arcPts nn s w l w'))) ↔
        ∃ s w l w' b, w ∈ Ks ∧ Arc nn P s w l w' b ∧ Near (edges (arcPts nn s w l w')) u v from Iff.rfl, h3, h2]
      have hrnB : rb.Nodup := Tb.all.nodup_iff.2 List.nodup_range
      constructor
      · rintro ⟨s, x, y, h4, h5⟩
        cases s
        · exact .inl ⟨x, y, (state_piece hrnd).2 ((eA x y).2 h4), h5⟩
        · exact .inr ⟨x, y, (state_piece hrnB).2 ((eB x y).2 h4), h5⟩
      · rintro (⟨x, y, h4, h5⟩ | ⟨x, y, h4, h5⟩)
        · exact ⟨false, x, y, (eA x y).1 ((state_piece hrnd).1 h4), h5⟩
        · exact ⟨true, x, y, (eB x y).1 ((state_piece hrnB).1 h4), h5⟩
  · rw [BitVec.toNat_ofNat, hM'.put]
  · intro i p hi
    have hil := (List.getElem?_eq_some_iff.1 hi).1
    have hv := hM'.verts
    have e2 : (s'.vertices.take s'.put)[i]? = some (place (ps[0]) ps qs cs p) := by rw [hv, List.getElem?_map, hi]; rfl
    rw [hM'.put, List.getElem?_take, if_pos hil] at e2
    refine ⟨_, e2, ?_⟩
    have hval := hE'.done.valid p (List.mem_of_getElem? hi)
    cases p with
    | a i =>
      have : i < ps.length := hval
      simp [At, place, this]
    | b j =>
      have : j < qs.length := hval
      simp [At, place, this]
    | x k =>
      have : k < cs.length := hval
      simp [At, place, this]

end Tm.Poly
