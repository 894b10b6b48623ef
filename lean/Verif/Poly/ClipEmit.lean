import Verif.Poly.ClipTrace

/-! # Emitting polygons -/

namespace Tm.Poly
open Spec

variable {F : Type} {nn : Bool → Nat} {N : Nat} {D : Bool → List (CV F)} {P : Bool → List Pass} {pos : Pt → V F}

/-- The data of one of the polygons. -/
def dataOf (s : Emit F) (b : Bool) : List (CV F) := if s.swapped = b then s.cur else s.other

/-- The memory while vertices `out` were emitted and crossings `G` are processed. -/
structure Mem (nn : Bool → Nat) (N : Nat) (D : Bool → List (CV F)) (pos : Pt → V F) (G : Nat → Prop) (s : Emit F) (out : List Pt) (len : Nat) :
    Prop where
  data : ∀ b, Eqp (dataOf s b) (D b)
  put : s.put = out.length
  verts : s.vertices.take s.put = out.map pos
  len : s.vertices.length = len
  flags : ∀ k < N, ((dataOf s false)[nn false + k]?.map (·.processed) = some true) ↔ G k

/-- One arc and the change to the other polygon. -/
theorem arc_run (W : World nn N D P pos) {G : Nat → Prop} {s : Emit F} {out : List Pt} {size len : Nat} (M : Mem nn N D pos G s out len)
    {side : Bool} {cur k : Nat} {l : List Nat} {back : Bool} (hs : s.swapped = side) (hi : s.i = nn side + cur) (hc : cur < N)
    (ha : Arc nn P side cur l k back) (hsize : (out ++ (l.map (pt side (nn side)) ++ [Pt.x k])).length ≤ size) (hlen : size ≤ len) :
    ∃ c s1 s', rd s.cur s.i = .ok c ∧ walk c.exit size (s.cur.length + 1) s = .ok s1 ∧ jump s1 = .ok s' ∧ s'.swapped = !side ∧
      s'.i = nn (!side) + k ∧ Mem nn N D pos (fun j => G j ∨ j = k) s' (out ++ (l.map (pt side (nn side)) ++ [Pt.x k])) len := by
  have hk := arc_end W ha
  have Wy := W.way side
  have hl := step_corner Wy ha
  have hE : Eqp s.cur (D side) := by
    have := M.data side
    unfold dataOf at this
    rwa [if_pos hs] at this
  have hE' : Eqp s.other (D !side) := by
    have := M.data (!side)
    unfold dataOf at this
    rwa [if_neg (by rw [hs]; cases side <;> simp)] at this
  obtain ⟨v, hv, -⟩ := Wy.node (nn side + cur) (by omega)
  obtain ⟨b, hb⟩ := eqp_get hE hv
  have hex : v.exit = back := step_exit Wy ha hv
  have hcl := (List.getElem?_eq_some_iff.1 hb).1
  have hll : l.length ≤ nn side := by
    have := (List.subperm_of_subset hl.2 (l₂ := List.range (nn side)) fun z hz => List.mem_range.2 (hl.1 z hz)).length_le
    rwa [List.length_range] at this
  have hnode : ∀ y < nn side + N, ∃ v, (D side)[y]? = some v ∧ v.intersect = decide (nn side ≤ y) ∧ v.pos = pos (pt side (nn side) y) := by
    intro y hy
    obtain ⟨v, h1, h2⟩ := Wy.node y hy
    exact ⟨v, h1, h2, W.pos side y hy v h1⟩
  simp only [List.length_append, List.length_map, List.length_singleton] at hsize
  obtain ⟨s1, e1, r1, r2, r3, r4, r5, r6, r7, r8⟩ := walk_ok (d0 := D side) (back := back) (size := size) (fun y => pos (pt side (nn side) y))
    l (nn side + cur) (nn side + k) (s.cur.length + 1) s (by omega) hi hE (step_chain Wy ha)
    (fun z hz => by
      obtain ⟨v, h1, h2, h3⟩ := hnode z (by have := hl.1 z hz; omega)
      exact ⟨v, h1, by rw [h2]; have := hl.1 z hz; simpa using this, h3⟩)
    (by
      obtain ⟨v, h1, h2, h3⟩ := hnode (nn side + k) (by omega)
      exact ⟨v, h1, by rw [h2]; simp, h3⟩)
    (by rw [M.put]; omega) (by rw [M.len]; exact hlen)
  -- the jump
  obtain ⟨w, hw, hwn⟩ := W.nb side k hk.1
  obtain ⟨b1, hb1⟩ := eqp_get r2 hw
  obtain ⟨w', hw', hwi⟩ := (W.way (!side)).node (nn (!side) + k) (by omega)
  obtain ⟨b2, hb2⟩ := eqp_get hE' hw'
  have hj := jump_ok (s := s1) (v := { w with processed := b1 }) (w := { w' with processed := b2 }) (by rw [r1]; exact hb1)
    (by simp only; rw [hwn, r3]; exact hb2) (by simp only; rw [hwi]; simp)
  simp only at hj
  rw [hwn] at hj
  have hk2 := (List.getElem?_eq_some_iff.1 hb2).1
  refine ⟨_, s1, _, by rw [hi]; exact rd_some hb, by simp only; rw [hex]; exact e1, hj, by rw [r4, hs], rfl, ?_⟩
  have hdat : ∀ (x y : List (CV F)) (i put : Nat) (vs : List (V F)) (c : Bool), dataOf ⟨x, y, !s1.swapped, i, put, vs⟩ c = if c = side then y else x := by
    intro x y i put vs c
    unfold dataOf
    simp only
    rw [r4, hs]
    cases c <;> cases side <;> simp
  refine ⟨fun c => ?_, ?_, ?_, ?_, fun j hj' => ?_⟩
  · rw [hdat]
    by_cases hcs : c = side
    · rw [if_pos hcs, hcs]
      exact r2
    · rw [if_neg hcs, show c = !side by cases c <;> cases side <;> simp_all]
      exact eqp_set (v := { w' with processed := b2 }) (by rw [r3]; exact hE') (by rw [r3]; exact hb2) rfl
  · simp only
    rw [r5, M.put]
    simp only [List.length_append, List.length_map, List.length_singleton]
    omega
  · simp only
    rw [r7, M.verts]
    simp only [List.map_append, List.map_map, List.map_cons, List.map_nil]
    rw [pt_crossing]
    rfl
  · simp only
    rw [r6, M.len]
  · rw [hdat]
    have hfl := M.flags j hj'
    cases side with
    | false =>
      rw [if_pos rfl, r8]
      unfold dataOf at hfl
      rw [if_pos hs] at hfl
      by_cases h : nn false + j ∈ l ++ [nn false + k]
      · rw [if_pos h]
        have : j = k := by
          rcases List.mem_append.1 h with h | h
          · have := hl.1 _ h
            omega
          · have := List.mem_singleton.1 h
            omega
        simp [this]
      · rw [if_neg h, hfl]
        have : j ≠ k := by
          rintro rfl
          exact h (by simp)
        simp [this]
    | true =>
      rw [if_neg (by simp)]
      unfold dataOf at hfl
      rw [if_neg (by rw [hs]; simp)] at hfl
      by_cases h : j = k
      · subst h
        rw [show (!true) = false from rfl] at hk2
        rw [r3]
        simp only [Bool.not_true]
        rw [List.getElem?_set_self hk2]
        simp
      · simp only [Bool.not_true]
        rw [List.getElem?_set_ne (by omega), r3, hfl]
        simp [h]

/-- The loop of one polygon. -/
theorem trace_ok (W : World nn N D P pos) {S : Nat → Prop} {out0 : List Pt} (hD : Done nn N P S out0) {size len k0 : Nat}
    (hsize : nn false + nn true + N ≤ size) (hlen : size ≤ len) : ∀ (fuel : Nat) {U : Bool → Nat → Prop} {xs : List Nat} {cur : Nat}
    {side : Bool} {out : List Pt} {s : Emit F}, Core nn N P S out0 U k0 xs cur out → Hist S N U k0 xs cur side →
    Mem nn N D pos (fun k => S k ∨ k = k0 ∨ k ∈ xs) s (out0 ++ out) len → s.swapped = side → s.i = nn side + cur → N ≤ xs.length + fuel →
    ∃ s' K out', trace size (nn false + k0) false fuel s = .ok s' ∧ Finished nn N P K out' ∧ Done nn N P (fun k => S k ∨ k ∈ K) (out0 ++ out') ∧
      Mem nn N D pos (fun k => S k ∨ k ∈ K) s' (out0 ++ out') len ∧ s'.swapped = false ∧ s'.i = nn false + k0 ∧
      k0 ∈ K ∧ K.Nodup ∧ 2 ≤ K.length ∧ (∀ k ∈ K, k < N ∧ ¬ S k) ∧ out' ≠ []
  | fuel, U, xs, cur, side, out, s, hC, hH, hM, hs, hi, hf => by
    have hxs : xs.length + 1 ≤ N := by
      have hnd : (k0 :: xs).Nodup := List.nodup_cons.2 ⟨hH.begin', hH.nodup⟩
      have := (List.subperm_of_subset hnd (l₂ := List.range N) fun z hz => by
        rcases List.mem_cons.1 hz with rfl | hz
        · exact List.mem_range.2 hH.lt0
        · exact List.mem_range.2 (hH.lt z hz)).length_le
      rwa [List.length_range, List.length_cons] at this
    cases fuel with
    | zero => omega
    | succ fuel =>
      obtain ⟨l, k, back, ha⟩ := arc_exists W side hH.ltc
      obtain ⟨hkx, hkN, hkS, hgo, hstop⟩ := hist_step W hD hC hH ha
      have hC' := core_extend W hD hC hH.free hH.notS ha hkx
      have hlength : (out0 ++ out ++ (l.map (pt side (nn side)) ++ [Pt.x k])).length ≤ size := by
        have := valid_length (nn := nn) (N := N) hC'.nodup (fun p hp => by
          rcases List.mem_append.1 hp with h | h
          · exact hD.valid p h
          · exact hC'.valid p h)
        rw [List.append_assoc]
        omega
      obtain ⟨c, s1, s', e1, e2, e3, hsw, hi', M'⟩ := arc_run W hM hs hi hH.ltc ha hlength hlen
      have M'' : Mem nn N D pos (fun j => S j ∨ j = k0 ∨ j ∈ xs ++ [k]) s' (out0 ++ (out ++ (l.map (pt side (nn side)) ++ [Pt.x k]))) len := by
        rw [← List.append_assoc]
        refine ⟨M'.data, M'.put, M'.verts, M'.len, fun j hj => ?_⟩
        rw [M'.flags j hj, List.mem_append, List.mem_singleton]
        tauto
      unfold trace
      rw [e1, ok_bind, e2, ok_bind, e3, ok_bind]
      by_cases hk0 : k = k0
      · obtain ⟨hside, hU⟩ := hstop hk0
        subst hk0
        subst hside
        rw [if_neg (by rw [hsw, hi']; simp)]
        obtain ⟨hFin, hDone⟩ := core_close hD hC' hU (by simp)
        refine ⟨s', xs ++ [k], _, rfl, hFin, hDone, ⟨M''.data, M''.put, M''.verts, M''.len, fun j hj => ?_⟩, hsw, hi', by simp, ?_, ?_, ?_, by simp⟩
        · rw [M''.flags j hj, List.mem_append, List.mem_singleton]
          tauto
        · rw [List.nodup_append']
          exact ⟨hH.nodup, List.nodup_singleton _, fun v hv h => by rw [List.mem_singleton] at h; exact hkx (h ▸ hv)⟩
        · rcases hH.state with ⟨-, -, h⟩ | ⟨h, -⟩
          · cases h
          · have := List.length_pos_of_mem h
            rw [List.length_append, List.length_singleton]
            omega
        · intro j hj
          rcases List.mem_append.1 hj with hj | hj
          · exact ⟨hH.lt j hj, hH.notSx j hj⟩
          · rw [List.mem_singleton.1 hj]
            exact ⟨hkN, hkS⟩
      · rw [if_pos]
        · exact trace_ok W hD hsize hlen fuel hC' (hgo hk0) M'' hsw hi' (by rw [List.length_append, List.length_singleton]; omega)
        · rw [hsw, hi']
          cases side with
          | false => exact .inr (by simp)
          | true => exact .inl (by simp only [Bool.not_true]; omega)

/-- Entries of polygons, the last one without its size. -/
structure Listed (p : Polys) (polys : List (List Pt)) (len : Nat) : Prop where
  length : p.entries.length = len
  count : p.count = polys.length
  current : p.current = if polys = [] then 1 else polys.length - 1
  begin' : ∀ i < polys.length, ∃ e, p.entries[i]? = some e ∧ e.vertices = (polys.take i).flatten.length ∧
    (i + 1 < polys.length → e.size = (polys[i]?.getD []).length)

/-- Entries of polygons. -/
structure Sized (p : Polys) (polys : List (List Pt)) (len : Nat) : Prop where
  length : p.entries.length = len
  count : p.count = polys.length
  entry : ∀ i poly, polys[i]? = some poly → p.entries[i]? = some (⟨(polys.take i).flatten.length, poly.length⟩ : Entry)

theorem close_ok {p : Polys} {polys : List (List Pt)} {len put : Nat} (hL : Listed p polys len) (hput : put = polys.flatten.length) :
    ∃ p', close p put = .ok p' ∧ Sized p' polys len := by
  unfold close
  by_cases h : polys = []
  · subst h
    rw [if_neg (by rw [hL.current, hL.count]; simp)]
    exact ⟨p, rfl, hL.length, hL.count, fun i poly hi => by simp at hi⟩
  · have hpos := List.length_pos_iff.2 h
    have hcur : p.current = polys.length - 1 := by rw [hL.current, if_neg h]
    rw [if_pos (by rw [hcur, hL.count]; omega)]
    obtain ⟨e, he, hv, -⟩ := hL.begin' (polys.length - 1) (by omega)
    rw [hcur, change_ok he, ok_bind]
    refine ⟨_, rfl, by simp [hL.length], hL.count, fun i poly hi => ?_⟩
    have hil := List.getElem?_eq_some_iff.1 hi
    simp only
    by_cases hi' : i = polys.length - 1
    · subst hi'
      rw [List.getElem?_set_self (List.getElem?_eq_some_iff.1 he).1, hv]
      have e3 : polys.flatten.length = (polys.take (polys.length - 1)).flatten.length + poly.length := by
        conv_lhs => rw [← List.take_append_drop (polys.length - 1) polys]
        rw [List.drop_eq_getElem_cons hil.1, hil.2, show polys.length - 1 + 1 = polys.length by omega, List.drop_length]
        simp
      rw [hput, e3, Nat.add_sub_cancel_left]
    · rw [List.getElem?_set_ne (Ne.symm hi')]
      obtain ⟨e', he', hv', hs'⟩ := hL.begin' i hil.1
      rw [he']
      have := hs' (by have := hil.1; omega)
      rw [hi, Option.getD_some] at this
      cases e'
      simp only at hv' this
      rw [hv', this]

theorem open_ok {p : Polys} {polys : List (List Pt)} {len put maxPolygons : Nat} (hS : Sized p polys len) (hput : put = polys.flatten.length)
    (h1 : polys.length + 1 ≤ maxPolygons) (h2 : maxPolygons ≤ len) (out : List Pt) :
    ∃ p', openPoly p maxPolygons put = .ok p' ∧ Listed p' (polys ++ [out]) len := by
  unfold openPoly
  rw [assert_ok (by rw [hS.count]; simpa using h1), ok_bind]
  have hlt : polys.length < p.entries.length := by rw [hS.length]; omega
  rw [hS.count, change_ok (List.getElem?_eq_getElem hlt), ok_bind]
  refine ⟨_, rfl, by simp [hS.length], by simp, by simp, fun i hi => ?_⟩
  rw [List.length_append, List.length_singleton] at hi
  simp only
  by_cases e : i = polys.length
  · subst e
    refine ⟨_, List.getElem?_set_self hlt, ?_, by simp⟩
    simp [hput]
  · have hil : i < polys.length := by omega
    rw [List.getElem?_set_ne (Ne.symm e), hS.entry i _ (List.getElem?_eq_getElem hil)]
    refine ⟨_, rfl, ?_, fun _ => ?_⟩
    · rw [List.take_append_of_le_length (by omega)]
    · rw [List.getElem?_append_left hil, List.getElem?_eq_getElem hil]
      rfl

/-- The polygons that were emitted. -/
structure Emitting (nn : Bool → Nat) (N : Nat) (P : Bool → List Pass) (Ks : List Nat) (polys : List (List Pt)) : Prop where
  done : Done nn N P (· ∈ Ks) polys.flatten
  nodup : Ks.Nodup
  lt : ∀ k ∈ Ks, k < N
  two : 2 * polys.length ≤ Ks.length
  nonempty : ∀ poly ∈ polys, poly ≠ []
  edge : ∀ u v, (∃ poly ∈ polys, Near (sides poly) u v) ↔
    ∃ s w l w' b, w ∈ Ks ∧ Arc nn P s w l w' b ∧ Near (edges (arcPts nn s w l w')) u v

theorem emitLoop_ok (W : World nn N D P pos) {size len maxPolygons elen limit : Nat} (hsize : nn false + nn true + N ≤ size) (hlen : size ≤ len)
    (hmax : N ≤ 2 * maxPolygons) (hel : maxPolygons ≤ elen) (hlimit : N ≤ limit) : ∀ (rest : List Nat) (fuel : Nat) {s : Emit F} {p : Polys}
    {Ks : List Nat} {polys : List (List Pt)}, rest.length < fuel → Emitting nn N P Ks polys →
    Mem nn N D pos (· ∈ Ks) s polys.flatten len → Listed p polys elen → s.swapped = false → (rest ++ [0]).head? = some s.i →
    (rest ++ [0]).IsChain (Link (D false)) → (∀ y ∈ rest, y ≠ 0 ∧ y < nn false + N) → (∀ k < N, nn false + k ∈ rest ∨ k ∈ Ks) →
    ∃ s' p' Ks' polys', emitLoop size maxPolygons limit fuel s p (decide (polys ≠ [])) = .ok (s', p', decide (polys' ≠ [])) ∧
      Emitting nn N P Ks' polys' ∧ Mem nn N D pos (· ∈ Ks') s' polys'.flatten len ∧ Listed p' polys' elen ∧ ∀ k < N, k ∈ Ks'
  | rest, 0, s, p, Ks, polys, hf, _, _, _, _, _, _, _, _ => by omega
  | [], fuel + 1, s, p, Ks, polys, hf, hE, hM, hL, hsw, hh, hc, hr, hk => by
    have hi : s.i = 0 := (Option.some.inj hh).symm
    unfold emitLoop
    rw [if_neg (by simp [hi])]
    exact ⟨s, p, Ks, polys, rfl, hE, hM, hL, fun k hkN => (hk k hkN).resolve_left (by simp)⟩
  | x :: rest, fuel + 1, s, p, Ks, polys, hf, hE, hM, hL, hsw, hh, hc, hr, hk => by
    have hi : s.i = x := (Option.some.inj hh).symm
    obtain ⟨hx0, hxN⟩ := hr x List.mem_cons_self
    rw [List.length_cons] at hf
    -- the next vertex
    obtain ⟨y, hy⟩ : ∃ y, (rest ++ [0]).head? = some y := by cases rest <;> simp
    have hlink : Link (D false) x y ∧ (rest ++ [0]).IsChain (Link (D false)) := by
      rw [List.cons_append] at hc
      cases hrest : rest ++ [0] with
      | nil => simp at hrest
      | cons z zs =>
        rw [hrest] at hc hy
        cases hy
        rw [List.isChain_cons_cons] at hc
        exact hc
    obtain ⟨⟨⟨v, hv, hvn⟩, -⟩, hc'⟩ := hlink
    have hcurE : ∀ s : Emit F, s.swapped = false → (∀ b, Eqp (dataOf s b) (D b)) → Eqp s.cur (D false) := by
      intro s h1 h2
      have := h2 false
      unfold dataOf at this
      rwa [if_pos h1] at this
    have hE0 := hcurE s hsw hM.data
    obtain ⟨b, hb⟩ := eqp_get hE0 hv
    have hxl := (List.getElem?_eq_some_iff.1 hb).1
    obtain ⟨w, hw, hwi⟩ := (W.way false).node x hxN
    rw [hv] at hw
    cases hw
    unfold emitLoop
    rw [if_pos (by rw [hi]; exact hx0), hi, rd_some hb, ok_bind]
    by_cases hnew : (v.intersect && !b) = true
    · rw [if_pos hnew, wr_ok hxl, ok_bind]
      rw [Bool.and_eq_true, hwi, decide_eq_true_eq] at hnew
      obtain ⟨hnx, hb'⟩ := hnew
      have hbf : b = false := by simpa using hb'
      subst hbf
      obtain ⟨k0, rfl⟩ : ∃ k0, x = nn false + k0 := ⟨x - nn false, by omega⟩
      have hk0N : k0 < N := by omega
      have hk0 : k0 ∉ Ks := by
        rw [← hM.flags k0 hk0N]
        unfold dataOf
        rw [if_pos hsw, hb]
        simp
      obtain ⟨p1, ep1, hS1⟩ := close_ok hL hM.put
      rw [ep1, ok_bind]
      -- the polygon is emitted
      have hM1 : Mem nn N D pos (fun k => k ∈ Ks ∨ k = k0 ∨ k ∈ ([] : List Nat)) { s with cur := s.cur.set (nn false + k0) { v with processed := true } }
          (polys.flatten ++ []) len := by
        rw [List.append_nil]
        refine ⟨fun c => ?_, hM.put, hM.verts, hM.len, fun k hkN => ?_⟩
        · have := hM.data c
          unfold dataOf at this ⊢
          simp only
          by_cases h : s.swapped = c
          · rw [if_pos h] at this ⊢
            exact eqp_set this hb rfl
          · rw [if_neg h] at this ⊢
            exact this
        · have := hM.flags k hkN
          unfold dataOf at this ⊢
          simp only
          rw [if_pos hsw] at this ⊢
          by_cases h : k = k0
          · subst h
            rw [List.getElem?_set_self hxl]
            simp
          · rw [List.getElem?_set_ne (by omega), this]
            simp [h]
      have hC0 : Core nn N P (· ∈ Ks) polys.flatten (fun _ _ => False) k0 [] k0 [] :=
        ⟨fun _ _ _ _ _ h => h.elim, by simp, by simp, by simp, by simpa using hE.done.nodup, fun u v => by simp [edges, Near], ⟨[], rfl⟩⟩
      have hH0 : Hist (· ∈ Ks) N (fun _ _ => False) k0 [] k0 false :=
        ⟨id, by simp, fun _ _ h => h.elim, .inl ⟨rfl, rfl, rfl⟩, hk0, hk0, by simp, by simp, List.nodup_nil, by simp, hk0N, hk0N⟩
      obtain ⟨s', K, out', et, hFin, hDone, hM', hsw', hi', hk0K, hKn, hK2, hKN, hne⟩ :=
        trace_ok W hE.done hsize hlen limit hC0 hH0 hM1 hsw hi (by simpa using hlimit)
      have hKsK : (Ks ++ K).Nodup := by
        rw [List.nodup_append']
        exact ⟨hE.nodup, hKn, fun k h h' => (hKN k h').2 h⟩
      have hKle : (Ks ++ K).length ≤ N := by
        have := (List.subperm_of_subset hKsK (l₂ := List.range N) fun z hz => by
          rcases List.mem_append.1 hz with hz | hz
          · exact List.mem_range.2 (hE.lt z hz)
          · exact List.mem_range.2 (hKN z hz).1).length_le
        rwa [List.length_range] at this
      rw [List.length_append] at hKle
      have htwo := hE.two
      obtain ⟨p2, ep2, hL2⟩ := open_ok hS1 hM.put (show polys.length + 1 ≤ maxPolygons by omega) hel out'
      rw [ep2, ok_bind]
      rw [hi, hsw] at et
      rw [hsw]
      dsimp only
      rw [et, ok_bind]
      -- the loop goes on
      have hE1 := hcurE s' hsw' hM'.data
      obtain ⟨b1, hb1⟩ := eqp_get hE1 hv
      rw [hi', rd_some hb1, ok_bind]
      have hE2 : Emitting nn N P (Ks ++ K) (polys ++ [out']) := by
        have hfl : (polys ++ [out']).flatten = polys.flatten ++ out' := by simp
        refine ⟨?_, hKsK, ?_, ?_, ?_, fun u w => ?_⟩
        · rw [hfl]
          have e : (fun k => k ∈ Ks ++ K) = fun k => k ∈ Ks ∨ k ∈ K := by
            funext k
            exact propext List.mem_append
          rw [e]
          exact hDone
        · intro k hk'
          rcases List.mem_append.1 hk' with h | h
          · exact hE.lt k h
          · exact (hKN k h).1
        · rw [List.length_append, List.length_append, List.length_singleton]
          omega
        · intro poly hp
          rcases List.mem_append.1 hp with h | h
          · exact hE.nonempty poly h
          · rw [List.mem_singleton.1 h]
            exact hne
        · constructor
          · rintro ⟨poly, hp, hn⟩
            rcases List.mem_append.1 hp with h | h
            · obtain ⟨t, z, l, z', c, h1, h2⟩ := (hE.edge u w).1 ⟨poly, h, hn⟩
              exact ⟨t, z, l, z', c, List.mem_append_left _ h1, h2⟩
            · rw [List.mem_singleton.1 h] at hn
              obtain ⟨t, z, l, z', c, h1, h2⟩ := (hFin.edge u w).1 hn
              exact ⟨t, z, l, z', c, List.mem_append_right _ h1, h2⟩
          · rintro ⟨t, z, l, z', c, h1, h2⟩
            rcases List.mem_append.1 h1 with h | h
            · obtain ⟨poly, hp, hn⟩ := (hE.edge u w).2 ⟨t, z, l, z', c, h, h2⟩
              exact ⟨poly, List.mem_append_left _ hp, hn⟩
            · exact ⟨out', by simp, (hFin.edge u w).2 ⟨t, z, l, z', c, h, h2⟩⟩
      have hM2 : Mem nn N D pos (· ∈ Ks ++ K) { s' with i := v.next.toNat } (polys ++ [out']).flatten len := by
        have hfl : (polys ++ [out']).flatten = polys.flatten ++ out' := by simp
        rw [hfl]
        exact ⟨hM'.data, hM'.put, hM'.verts, hM'.len, fun k hkN => by rw [List.mem_append]; exact hM'.flags k hkN⟩
      have ih := emitLoop_ok W hsize hlen hmax hel hlimit rest fuel (by omega) hE2 hM2 hL2 hsw' (by simp only; rw [hvn]; exact hy) hc'
        (fun z hz => hr z (List.mem_cons_of_mem _ hz)) (fun k hkN => by
          rcases hk k hkN with h | h
          · rcases List.mem_cons.1 h with h | h
            · have : k = k0 := by omega
              subst this
              exact .inr (List.mem_append_right _ hk0K)
            · exact .inl h
          · exact .inr (List.mem_append_left _ h))
      rw [show decide (polys ++ [out'] ≠ []) = true by simp] at ih
      exact ih
    · rw [if_neg hnew]
      have hM2 : Mem nn N D pos (· ∈ Ks) { s with i := v.next.toNat } polys.flatten len := ⟨hM.data, hM.put, hM.verts, hM.len, hM.flags⟩
      refine emitLoop_ok W hsize hlen hmax hel hlimit rest fuel (by omega) hE hM2 hL hsw (by simp only; rw [hvn]; exact hy) hc'
        (fun z hz => hr z (List.mem_cons_of_mem _ hz)) (fun k hkN => ?_)
      rcases hk k hkN with h | h
      · rcases List.mem_cons.1 h with h | h
        · right
          rw [← hM.flags k hkN]
          unfold dataOf
          rw [if_pos hsw, h, hb]
          rw [hwi, decide_eq_true (by omega), Bool.true_and] at hnew
          simp only [Option.map_some, Option.some.injEq]
          simpa using hnew
        · exact .inl h
      · exact .inr h

end Tm.Poly
