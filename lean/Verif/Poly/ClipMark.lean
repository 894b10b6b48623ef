import Verif.Poly.ClipExact

/-! # Marking entries and exits -/

namespace Tm.Poly
open Spec

variable {F : Type} {A : Arith F}

theorem odd_cons (n x : Nat) (l : List Nat) : oddCrossings n (x :: l) = (oddCrossings n l != decide (n ≤ x)) := by
  unfold oddCrossings
  rw [List.filter_cons]
  by_cases h : n ≤ x
  · rw [decide_eq_true h, if_pos rfl, List.length_cons, Bool.eq_iff_iff]
    simp
    omega
  · rw [decide_eq_false h]
    simp

theorem odd_append (n : Nat) (l r : List Nat) : oddCrossings n (l ++ r) = (oddCrossings n l != oddCrossings n r) := by
  induction l with
  | nil => simp [oddCrossings]
  | cons x l ih =>
    rw [List.cons_append, odd_cons, odd_cons, ih]
    cases oddCrossings n l <;> cases oddCrossings n r <;> cases decide (n ≤ x) <;> rfl

theorem markLoop_ok {n : Nat} : ∀ (l : List Nat) (x fuel : Nat) (data : List (CV F)) (inside : Bool), l.length < fuel →
    ((x :: l) ++ [0]).IsChain (Link data) → (x :: l).Nodup → (∀ y ∈ l, y ≠ 0) →
    (∀ y ∈ x :: l, ∃ v, data[y]? = some v ∧ v.intersect = decide (n ≤ y) ∧ v.exit = false) →
    ∃ data', markLoop fuel data x inside = .ok data' ∧ data'.length = data.length ∧ (∀ y, y ∉ x :: l → data'[y]? = data[y]?) ∧
      ∀ pre y post v, x :: l = pre ++ y :: post → data[y]? = some v →
        data'[y]? = some { v with exit := decide (n ≤ y) && (inside != oddCrossings n pre) }
  | l, x, 0, _, _, h, _, _, _, _ => by omega
  | l, x, fuel + 1, data, inside, hf, hc, hn, h0, hd => by
    obtain ⟨v, hv, hi, he⟩ := hd x List.mem_cons_self
    have hxl := (List.getElem?_eq_some_iff.1 hv).1
    unfold markLoop
    rw [rd_some hv, ok_bind]
    -- the data after this vertex
    have hstep : ∃ data1, markOne data x v inside = .ok data1 ∧
        data1 = data.set x { v with exit := decide (n ≤ x) && inside } := by
      unfold markOne
      rw [← hi]
      by_cases h : (v.intersect && inside) = true
      · rw [if_pos h, change_ok hv]
        exact ⟨_, rfl, by rw [h]⟩
      · rw [if_neg h]
        rw [Bool.not_eq_true] at h
        refine ⟨data, rfl, ?_⟩
        rw [h, show ({ v with exit := false } : CV F) = v by cases v; cases he; rfl]
        have hx := (List.getElem?_eq_some_iff.1 hv).2
        rw [← hx, List.set_getElem_self]
    obtain ⟨data1, e1, rfl⟩ := hstep
    rw [e1, ok_bind]
    cases l with
    | nil =>
      have hnext : v.next.toNat = 0 := by
        rw [List.singleton_append, List.isChain_cons_cons] at hc
        obtain ⟨⟨w, hw, e⟩, -⟩ := hc.1
        rw [hv] at hw
        cases hw
        exact e
      rw [if_neg (by simp [hnext])]
      refine ⟨_, rfl, List.length_set, fun y hy => ?_, fun pre y post w e hw => ?_⟩
      · rw [List.getElem?_set_ne (fun e => hy (by rw [e]; exact List.mem_cons_self))]
      · cases pre with
        | nil =>
          cases e
          rw [hv] at hw
          cases hw
          rw [List.getElem?_set_self hxl]
          simp [oddCrossings]
        | cons a pre => simp at e
    | cons y l =>
      have hnext : v.next.toNat = y := by
        rw [List.cons_append, List.cons_append, List.isChain_cons_cons] at hc
        obtain ⟨⟨w, hw, e⟩, -⟩ := hc.1
        rw [hv] at hw
        cases hw
        exact e
      have hy0 := h0 y List.mem_cons_self
      have hmk : (inside != v.intersect) = (inside != decide (n ≤ x)) := by rw [hi]
      rw [hnext, if_pos hy0, hmk]
      have hxn : x ∉ y :: l := (List.nodup_cons.1 hn).1
      have hkeep : ∀ (z : Nat) (u : CV F), data[z]? = some u → ∃ u' : CV F, (data.set x { v with exit := decide (n ≤ x) && inside })[z]? = some u' ∧
          u'.next = u.next ∧ u'.prev = u.prev := by
        intro z u hu
        by_cases e : x = z
        · subst e
          rw [hv] at hu
          cases hu
          exact ⟨_, List.getElem?_set_self hxl, rfl, rfl⟩
        · exact ⟨u, by rw [List.getElem?_set_ne e, hu], rfl, rfl⟩
      obtain ⟨data', e2, l2, u2, m2⟩ := markLoop_ok l y fuel (data.set x { v with exit := decide (n ≤ x) && inside }) (inside != decide (n ≤ x))
        (by rw [List.length_cons] at hf; omega)
        (by
          rw [List.cons_append, List.cons_append, List.isChain_cons_cons] at hc
          refine hc.2.imp fun z w hl => ?_
          obtain ⟨⟨u, hu, e⟩, u', hu', e'⟩ := hl
          obtain ⟨p, hp, p1, -⟩ := hkeep z u hu
          obtain ⟨q, hq, -, q1⟩ := hkeep w u' hu'
          exact ⟨⟨p, hp, by rw [p1, e]⟩, q, hq, by rw [q1, e']⟩)
        (List.nodup_cons.1 hn).2 (fun z hz => h0 z (List.mem_cons_of_mem _ hz))
        (fun z hz => by
          obtain ⟨u, hu, h⟩ := hd z (List.mem_cons_of_mem _ hz)
          exact ⟨u, by rw [List.getElem?_set_ne (fun e => hxn (by rw [e]; exact hz)), hu], h⟩)
      refine ⟨data', e2, by rw [l2, List.length_set], fun z hz => ?_, fun pre z post w e hw => ?_⟩
      · rw [u2 z (fun h => hz (List.mem_cons_of_mem _ h)), List.getElem?_set_ne (fun e => hz (by rw [e]; exact List.mem_cons_self))]
      · cases pre with
        | nil =>
          cases e
          rw [hv] at hw
          cases hw
          rw [u2 x hxn, List.getElem?_set_self hxl]
          simp [oddCrossings]
        | cons a pre =>
          rw [List.cons_append] at e
          obtain ⟨e3, e4⟩ := List.cons.inj e
          subst e3
          rw [m2 pre z post w e4 (by rw [List.getElem?_set_ne (fun e => hxn (by rw [e4, e]; simp)), hw]), odd_cons]
          congr 3
          cases inside <;> cases oddCrossings n pre <;> cases decide (n ≤ x) <;> rfl

/-- The corners after which sides cross the ray, as the loop sees it. -/
def hits (A : Arith F) (ps : List (V F)) (p : V F) (i n : Nat) : List Nat :=
  (List.range' i n).filter fun k => match ps[k]?, ps[if k = 0 then ps.length - 1 else k - 1]? with
    | some cur, some prev => crosses A p cur prev
    | _, _ => false

theorem insideLoop_ok {data : List (CV F)} {ps : List (V F)} (hps : ∀ (i : Nat) q, ps[i]? = some q → ∃ v : CV F, data[i]? = some v ∧ v.pos = q) (p : V F) :
    ∀ (n i : Nat) (odd : Bool), i + n ≤ ps.length →
      insideLoop A data p n i (if i = 0 then ps.length - 1 else i - 1) odd = .ok (odd != decide ((hits A ps p i n).length % 2 = 1))
  | 0, i, odd, _ => by simp [insideLoop, hits]
  | n + 1, i, odd, h => by
    have g1 : ps[i]? = some (ps[i]'(by omega)) := List.getElem?_eq_getElem _
    have g2 : ps[if i = 0 then ps.length - 1 else i - 1]? = some (ps[if i = 0 then ps.length - 1 else i - 1]'(by split <;> omega)) :=
      List.getElem?_eq_getElem _
    obtain ⟨v, hv, ev⟩ := hps _ _ g1
    obtain ⟨w, hw, ew⟩ := hps _ _ g2
    unfold insideLoop
    rw [rd_some hv, ok_bind, rd_some hw, ok_bind]
    have ih := insideLoop_ok hps p n (i + 1) (odd != crosses A p v.pos w.pos) (by omega)
    rw [if_neg (by omega), Nat.add_sub_cancel] at ih
    rw [ih]
    congr 1
    have e : hits A ps p i (n + 1) = if crosses A p v.pos w.pos = true then i :: hits A ps p (i + 1) n else hits A ps p (i + 1) n := by
      unfold hits
      rw [List.range'_succ, List.filter_cons]
      simp only [g1, g2]
      rw [ev, ew]
    rw [e]
    cases crosses A p v.pos w.pos
    · simp
    · simp only [if_true, List.length_cons]
      have : decide (((hits A ps p (i + 1) n).length + 1) % 2 = 1) = !decide ((hits A ps p (i + 1) n).length % 2 = 1) := by
        rw [Bool.eq_iff_iff]
        simp
        omega
      rw [this]
      cases odd <;> cases decide ((hits A ps p (i + 1) n).length % 2 = 1) <;> rfl

theorem pointInside_ok {ps : List (V F)} {vs : Clip F} (hP : vs.originalSize = ps.length)
    (hps : ∀ (i : Nat) q, ps[i]? = some q → ∃ v : CV F, vs.data[i]? = some v ∧ v.pos = q) (p : V F) :
    pointInside A vs p = .ok (decide ((hits A ps p 0 ps.length).length % 2 = 1)) := by
  unfold pointInside
  have := insideLoop_ok (A := A) hps p ps.length 0 false (by omega)
  rw [if_pos rfl] at this
  rw [hP, this]
  simp

theorem crosses_exact (v p q : V ℚ) : crosses exact (fin v) (fin q) (fin p) = true ↔ OnRay v p q := by
  unfold crosses fin
  simp only [exact_le, exact_lt, exact_sub]
  by_cases h : q.y < v.y ∧ v.y ≤ p.y ∨ p.y < v.y ∧ v.y ≤ q.y
  · have hne : p.y - q.y ≠ 0 := by
      rcases h with h | h
      · linarith [h.1, h.2]
      · linarith [h.1, h.2]
    rw [exact_div _ _ hne, exact_mul, exact_add, exact_lt]
    have h' : (decide (v.y ≤ p.y) && decide (q.y < v.y) || decide (p.y < v.y) && decide (v.y ≤ q.y)) = true := by
      simp only [Bool.or_eq_true, Bool.and_eq_true, decide_eq_true_eq]
      tauto
    rw [h', Bool.true_and, decide_eq_true_eq]
    have hne' : q.y - p.y ≠ 0 := fun e => hne (by linarith)
    constructor
    · intro hx
      refine ⟨h, (p.y - v.y) / (p.y - q.y), ?_, ?_, ?_, hx⟩
      · rcases h with h | h
        · exact div_nonneg (by linarith [h.2]) (by linarith [h.1, h.2])
        · exact div_nonneg_of_nonpos (by linarith [h.1]) (by linarith [h.1, h.2])
      · rcases h with h | h
        · rw [div_le_one (by linarith [h.1, h.2])]
          linarith [h.1]
        · rw [div_le_one_of_neg (by linarith [h.1, h.2])]
          linarith [h.2]
      · field_simp
        ring
    · rintro ⟨-, t, -, -, ht, hx⟩
      have : (p.y - v.y) / (p.y - q.y) = t := by
        rw [div_eq_iff hne]
        linear_combination ht
      rwa [this]
  · have h' : (decide (v.y ≤ p.y) && decide (q.y < v.y) || decide (p.y < v.y) && decide (v.y ≤ q.y)) = false := by
      rw [← Bool.not_eq_true]
      simp only [Bool.or_eq_true, Bool.and_eq_true, decide_eq_true_eq]
      tauto
    rw [h', Bool.false_and]
    exact ⟨fun e => (by cases e), fun e => absurd e.1 h⟩

theorem inside_exact (ps : List (V ℚ)) (v : V ℚ) : Inside ps v (decide ((hits exact (ps.map fin) (fin v) 0 ps.length).length % 2 = 1)) := by
  refine ⟨hits exact (ps.map fin) (fin v) 0 ps.length, (List.nodup_range' (step := 1)).filter _, fun i => ?_, rfl⟩
  unfold hits
  rw [List.mem_filter, List.mem_range'_1]
  constructor
  · rintro ⟨⟨-, h1⟩, h2⟩
    obtain ⟨p, q, hs, e1, e2⟩ := side_map (show i < ps.length by omega)
    rw [List.length_map, e1, e2] at h2
    exact ⟨p, q, hs, (crosses_exact v p q).1 h2⟩
  · rintro ⟨p, q, hs, h⟩
    have h1 := (List.getElem?_eq_some_iff.1 hs.1).1
    refine ⟨⟨by omega, by omega⟩, ?_⟩
    obtain ⟨p', q', hs', e1, e2⟩ := side_map h1
    obtain ⟨rfl, rfl⟩ := side_unique hs hs'
    rw [List.length_map, e1, e2]
    exact (crosses_exact v _ _).2 h

/-- Marking one polygon. -/
theorem markSingle_ok {m : Nat} {ps : List (V F)} {cs : List (Crossing F)} {vs other : Clip F} (hP : Prepared A m ps cs vs) {ring : List Nat}
    (T : Tour A vs.data ps.length cs ring) {p0 : V F} (h0 : ps[0]? = some p0) (hl : vs.size ≤ vs.data.length) {inside : Bool}
    (hin : pointInside A other p0 = .ok inside) (backward : Bool) :
    ∃ vs', markSingle A vs other backward = .ok vs' ∧ Marked ps.length ring (inside != backward) vs vs' := by
  have hn := (List.getElem?_eq_some_iff.1 h0).1
  obtain ⟨v0, hv0, e0, i0, x0, -⟩ := hP.corner 0 p0 h0
  have hdata : ∀ y ∈ ring, ∃ v, vs.data[y]? = some v ∧ v.intersect = decide (ps.length ≤ y) ∧ v.exit = false := by
    intro y hy
    have hy' := List.mem_range.1 (T.all.subset hy)
    by_cases h : y < ps.length
    · obtain ⟨v, h1, h2, h3, h4, h5⟩ := hP.corner y _ (List.getElem?_eq_getElem h)
      exact ⟨v, h1, by rw [h3, decide_eq_false (by omega)], h4⟩
    · obtain ⟨v, h1, h2, -, -, h3, h4, -⟩ := hP.crossing (y - ps.length) _ (List.getElem?_eq_getElem (show y - ps.length < cs.length by omega))
      rw [show ps.length + (y - ps.length) = y by omega] at h1
      exact ⟨v, h1, by rw [h3, decide_eq_true (by omega)], h4⟩
  have hnd : ring.Nodup := T.all.nodup_iff.2 List.nodup_range
  obtain ⟨hr, hc⟩ := T.closed
  unfold markSingle
  rw [if_pos (by rw [hP.size]; omega), rd_some hv0, ok_bind, e0, hin, ok_bind]
  cases ring with
  | nil => cases hr
  | cons x ring =>
    cases hr
    cases ring with
    | nil =>
      have hnext : v0.next.toNat = 0 := by
        rw [List.singleton_append, List.isChain_cons_cons] at hc
        obtain ⟨⟨w, hw, e⟩, -⟩ := hc.1
        rw [hv0] at hw
        cases hw
        exact e
      rw [hnext]
      obtain ⟨data', e, l, u, mk⟩ := markLoop_ok (n := ps.length) [] 0 (vs.data.length + 1) vs.data (inside != backward) (by simp) hc hnd (by simp) hdata
      rw [e, ok_bind]
      exact ⟨_, rfl, rfl, rfl, rfl, l, mk⟩
    | cons y l =>
      have hnext : v0.next.toNat = y := by
        rw [List.cons_append, List.cons_append, List.isChain_cons_cons] at hc
        obtain ⟨⟨w, hw, e⟩, -⟩ := hc.1
        rw [hv0] at hw
        cases hw
        exact e
      rw [hnext]
      have hlen := T.all.length_eq
      rw [List.length_range, ← hP.size, List.length_cons, List.length_cons] at hlen
      rw [List.cons_append, List.cons_append, List.isChain_cons_cons] at hc
      obtain ⟨data', e, l, u, mk⟩ := markLoop_ok (n := ps.length) l y (vs.data.length + 1) vs.data (inside != backward) (by omega) hc.2
        (List.nodup_cons.1 hnd).2 (fun z hz e => (List.nodup_cons.1 hnd).1 (e ▸ List.mem_cons_of_mem _ hz))
        (fun z hz => hdata z (List.mem_cons_of_mem _ hz))
      rw [e, ok_bind]
      refine ⟨_, rfl, rfl, rfl, rfl, l, fun pre z post v e' hv => ?_⟩
      cases pre with
      | nil =>
        cases e'
        simp only
        rw [u 0 (List.nodup_cons.1 hnd).1]
        rw [hv0] at hv
        cases hv
        rw [decide_eq_false (by omega), Bool.false_and, hv0]
        cases v0
        cases x0
        rfl
      | cons a pre =>
        rw [List.cons_append] at e'
        obtain ⟨e3, e4⟩ := List.cons.inj e'
        subst e3
        simp only
        rw [mk pre z post v e4 hv, odd_cons, decide_eq_false (show ¬ ps.length ≤ 0 by omega)]
        simp

end Tm.Poly
