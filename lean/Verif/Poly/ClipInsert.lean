import Mathlib.Data.List.Nodup
import Verif.Poly.ClipRing

/-! # Insertion of a crossing -/

namespace Tm.Poly
open Spec

variable {F : Type} {A : Arith F}

theorem split_unique {α : Type} {x : α} : ∀ {l r l' r' : List α}, l ++ x :: r = l' ++ x :: r' → (l ++ x :: r).Nodup → l = l' ∧ r = r'
  | [], r, [], r', h, _ => ⟨rfl, (List.cons.inj h).2⟩
  | [], r, y :: l', r', h, hn => by
    cases h
    simp at hn
  | y :: l, r, [], r', h, hn => by
    cases h
    simp at hn
  | y :: l, r, z :: l', r', h, hn => by
    simp only [List.cons_append, List.cons.injEq] at h
    rw [List.cons_append, List.nodup_cons] at hn
    obtain ⟨e1, e2⟩ := split_unique h.2 hn.2
    exact ⟨by rw [h.1, e1], e2⟩

/-- The members other than the links. -/
structure Same (v w : CV F) : Prop where
  pos : w.pos = v.pos
  intersect : w.intersect = v.intersect
  exit : w.exit = v.exit
  processed : w.processed = v.processed
  neighbor : w.neighbor = v.neighbor
  alpha : w.alpha = v.alpha

theorem create_ok {vs : Clip F} {at' old neighbor : Nat} (pos : V F) (alpha : F) {ref w : CV F} (hc : vs.size < vs.capacity)
    (hd : vs.capacity ≤ vs.data.length) (h16 : vs.capacity ≤ 65536) (ha : at' < vs.size) (ho : old < vs.size)
    (hr : vs.data[at']? = some ref) (hn : ref.next.toNat = old) (hw : vs.data[old]? = some w) (hnb : neighbor < 65536) :
    ∃ data', createIntersection vs at' pos neighbor alpha = .ok { vs with data := data', size := vs.size + 1 } ∧
      data'.length = vs.data.length ∧
      (∀ x, x ≠ at' → x ≠ vs.size → data'[x]?.map (·.next) = vs.data[x]?.map (·.next)) ∧
      (∀ x, x ≠ old → x ≠ vs.size → data'[x]?.map (·.prev) = vs.data[x]?.map (·.prev)) ∧
      Link data' at' vs.size ∧ Link data' vs.size old ∧
      (∃ v, data'[vs.size]? = some v ∧ v.pos = pos ∧ v.alpha = alpha ∧ v.neighbor.toNat = neighbor ∧ v.intersect = true ∧ v.exit = false ∧
        v.processed = false) ∧
      ∀ x v, x ≠ vs.size → vs.data[x]? = some v → ∃ v', data'[x]? = some v' ∧ Same v v' := by
  have h1 : vs.size ≠ at' := by omega
  have h2 : vs.size ≠ old := by omega
  have hl : vs.size < vs.data.length := by omega
  have t1 : ∀ k < 65536, (BitVec.ofNat 16 k).toNat = k := fun k hk => by rw [BitVec.toNat_ofNat]; exact Nat.mod_eq_of_lt (by omega)
  have e2 : (vs.data.set vs.size ⟨pos, ref.next, BitVec.ofNat 16 at', true, false, false, BitVec.ofNat 16 neighbor, alpha⟩)[at']? = some ref := by
    rw [List.getElem?_set_ne h1, hr]
  have e3 : ∃ w', ((vs.data.set vs.size ⟨pos, ref.next, BitVec.ofNat 16 at', true, false, false, BitVec.ofNat 16 neighbor, alpha⟩).set at'
      { ref with next := BitVec.ofNat 16 vs.size })[old]? = some w' ∧ Same w w' ∧ w'.next = (if old = at' then BitVec.ofNat 16 vs.size else w.next)
        ∧ w'.prev = w.prev := by
    by_cases e : at' = old
    · subst e
      rw [hr] at hw
      cases hw
      refine ⟨{ ref with next := BitVec.ofNat 16 vs.size }, ?_, ⟨rfl, rfl, rfl, rfl, rfl, rfl⟩, by rw [if_pos rfl], rfl⟩
      rw [List.getElem?_set_self (by rw [List.length_set]; omega)]
    · refine ⟨w, ?_, ⟨rfl, rfl, rfl, rfl, rfl, rfl⟩, by rw [if_neg fun h => e h.symm], rfl⟩
      rw [List.getElem?_set_ne e, List.getElem?_set_ne h2, hw]
  obtain ⟨w', e3, sw, nw, pw⟩ := e3
  refine ⟨((vs.data.set vs.size ⟨pos, ref.next, BitVec.ofNat 16 at', true, false, false, BitVec.ofNat 16 neighbor, alpha⟩).set at'
      { ref with next := BitVec.ofNat 16 vs.size }).set old { w' with prev := BitVec.ofNat 16 vs.size }, ?_, ?_, ?_, ?_, ?_, ?_, ?_, ?_⟩
  · unfold createIntersection
    rw [assert_ok (by simp; omega), ok_bind, rd_some hr, ok_bind, wr_ok hl, ok_bind, change_ok e2, ok_bind, hn, change_ok e3, ok_bind]
  · simp
  · intro x hx hx'
    by_cases e : old = x
    · subst e
      rw [List.getElem?_set_self (by simp; omega), hw]
      simp only [Option.map_some]
      rw [nw, if_neg hx]
    · rw [List.getElem?_set_ne e, List.getElem?_set_ne (Ne.symm hx), List.getElem?_set_ne (Ne.symm hx')]
  · intro x hx hx'
    rw [List.getElem?_set_ne (Ne.symm hx)]
    by_cases e : at' = x
    · subst e
      rw [List.getElem?_set_self (by simp; omega), hr]
      rfl
    · rw [List.getElem?_set_ne e, List.getElem?_set_ne (Ne.symm hx')]
  · constructor
    · by_cases e : old = at'
      · subst e
        refine ⟨{ w' with prev := BitVec.ofNat 16 vs.size }, by rw [List.getElem?_set_self (by simp; omega)], ?_⟩
        simp only
        rw [nw, if_pos rfl, t1 _ (by omega)]
      · refine ⟨{ ref with next := BitVec.ofNat 16 vs.size }, ?_, t1 _ (by omega)⟩
        rw [List.getElem?_set_ne e, List.getElem?_set_self (by simp; omega)]
    · refine ⟨⟨pos, ref.next, BitVec.ofNat 16 at', true, false, false, BitVec.ofNat 16 neighbor, alpha⟩, ?_, t1 _ (by omega)⟩
      rw [List.getElem?_set_ne h2.symm, List.getElem?_set_ne h1.symm, List.getElem?_set_self hl]
  · constructor
    · refine ⟨⟨pos, ref.next, BitVec.ofNat 16 at', true, false, false, BitVec.ofNat 16 neighbor, alpha⟩, ?_, hn⟩
      rw [List.getElem?_set_ne h2.symm, List.getElem?_set_ne h1.symm, List.getElem?_set_self hl]
    · exact ⟨{ w' with prev := BitVec.ofNat 16 vs.size }, by rw [List.getElem?_set_self (by simp; omega)], t1 _ (by omega)⟩
  · refine ⟨⟨pos, ref.next, BitVec.ofNat 16 at', true, false, false, BitVec.ofNat 16 neighbor, alpha⟩, ?_, rfl, rfl, t1 _ hnb, rfl, rfl, rfl⟩
    rw [List.getElem?_set_ne h2.symm, List.getElem?_set_ne h1.symm, List.getElem?_set_self hl]
  · intro x v hx hv
    by_cases e : old = x
    · subst e
      rw [hw] at hv
      cases hv
      exact ⟨{ w' with prev := BitVec.ofNat 16 vs.size }, by rw [List.getElem?_set_self (by simp; omega)],
        ⟨sw.pos, sw.intersect, sw.exit, sw.processed, sw.neighbor, sw.alpha⟩⟩
    · rw [List.getElem?_set_ne e]
      by_cases e' : at' = x
      · subst e'
        rw [hr] at hv
        cases hv
        exact ⟨{ ref with next := BitVec.ofNat 16 vs.size }, by rw [List.getElem?_set_self (by simp; omega)], ⟨rfl, rfl, rfl, rfl, rfl, rfl⟩⟩
      · exact ⟨v, by rw [List.getElem?_set_ne e', List.getElem?_set_ne (Ne.symm hx), hv], ⟨rfl, rfl, rfl, rfl, rfl, rfl⟩⟩

theorem filter_corner_length {ring P post : List Nat} {n i : Nat} (h : (ring.filter fun x => decide (x < n)) = List.range n)
    (hi : i < n) (e : ring = P ++ i :: post) : (P.filter fun x => decide (x < n)).length = i := by
  rw [e, List.filter_append, List.filter_cons, if_pos (by simpa using hi)] at h
  have h1 : (List.range n)[(P.filter fun x => decide (x < n)).length]? = some i := by
    rw [← h, List.getElem?_append_right (Nat.le_refl _), Nat.sub_self]
    rfl
  have h2 := List.getElem?_eq_some_iff.1 h1
  obtain ⟨h3, h4⟩ := h2
  rw [List.getElem_range] at h4
  exact h4

/-- What comes before corner `i`. -/
theorem split_before {data : List (CV F)} {n : Nat} {cs : List (Crossing F)} {ring : List Nat} (T : Tour A data n cs ring) {i : Nat} (hi : i < n) :
    ∃ P R post, ring = P ++ R ∧ R ++ [0] = i :: post ∧ P ≠ [] ∧
      (P.filter fun x => decide (x < n)).length = (if i = 0 then n else i) ∧ ∀ y r, R = y :: r → y = i := by
  by_cases h0 : i = 0
  · subst h0
    refine ⟨ring, [], [], by simp, rfl, ?_, ?_, (fun y r h => by cases h)⟩
    · rintro rfl
      have := T.closed.1
      cases this
    · rw [T.corners, List.length_range, if_pos rfl]
  · have hm : i ∈ ring := T.all.mem_iff.2 (by rw [List.mem_range]; omega)
    obtain ⟨P, R, e⟩ := List.append_of_mem hm
    refine ⟨P, i :: R, R ++ [0], e, rfl, ?_, ?_, fun y r h => by cases h; rfl⟩
    · rintro rfl
      have := T.closed.1
      rw [e] at this
      simp at this
      exact h0 this
    · rw [filter_corner_length T.corners hi e, if_neg h0]

theorem filter_ne {N : Nat} {l : List Nat} (h : N ∉ l) : (l.filter fun x => decide (x ≠ N)) = l :=
  List.filter_eq_self.2 fun x hx => by
    rw [decide_eq_true_eq]
    rintro rfl
    exact h hx

theorem filter_filter_ne {N n : Nat} (hN : n ≤ N) (l : List Nat) :
    ((l.filter fun x => decide (x ≠ N)).filter fun x => decide (x < n)) = l.filter fun x => decide (x < n) := by
  rw [List.filter_filter]
  congr 1
  funext x
  by_cases h : x < n
  · have : x ≠ N := by omega
    simp [h, this]
  · simp [h]

theorem insert_prepared (hA : ∀ x y, A.lt x y = true → A.lt y x = false) {m : Nat} {ps : List (V F)} {cs : List (Crossing F)} {vs : Clip F}
    (hP : Prepared A m ps cs vs) (hM : Memory vs (vs.size + 1)) {i : Nat} (hi : i < ps.length) (hm : m + cs.length < 65536) (pos : V F)
    (alpha : F) :
    ∃ v at', vs.data[i]? = some v ∧ findIndex A vs.data alpha (vs.data.length + 1) v.prev.toNat = .ok at' ∧
      ∃ vs', createIntersection vs at' pos (m + cs.length) alpha = .ok vs' ∧ Prepared A m ps (cs ++ [⟨i, pos, alpha⟩]) vs' ∧
        vs'.capacity = vs.capacity ∧ vs'.data.length = vs.data.length := by
  obtain ⟨ring, T⟩ := hP.tour
  obtain ⟨c1, c2, c3⟩ := hM
  have hsz := hP.size
  have hnd : ring.Nodup := T.all.nodup_iff.2 List.nodup_range
  have hlt : ∀ x ∈ ring, x < vs.size := fun x hx => by
    have := T.all.mem_iff.1 hx
    rw [List.mem_range] at this
    omega
  have hN : vs.size ∉ ring := fun h => absurd (hlt _ h) (by omega)
  have hex : ∀ x < vs.size, ∃ v, vs.data[x]? = some v := fun x hx => ⟨vs.data[x]'(by omega), List.getElem?_eq_getElem _⟩
  obtain ⟨P, R, post, e1, e2, hPne, hcount, hR⟩ := split_before T hi
  obtain ⟨l, z, eP⟩ : ∃ l z, P = l ++ [z] := by
    obtain ⟨l, z, h, -⟩ := snoc (List.length_pos_iff.2 hPne)
    exact ⟨l, z, h⟩
  have hclosed : ring ++ [0] = P ++ i :: post := by rw [e1, List.append_assoc, e2]
  have hchain := T.closed.2
  rw [hclosed] at hchain
  have hP0 : P.head? = some 0 := by
    have := T.closed.1
    rw [e1, List.head?_append] at this
    rw [List.head?_eq_some_head hPne] at this ⊢
    exact this
  have hPchain : P.IsChain (Link vs.data) := hchain.left_of_append
  have hlink : Link vs.data z i := by
    rw [eP, List.append_assoc, List.singleton_append, List.isChain_append_cons_cons] at hchain
    exact hchain.2.1
  obtain ⟨v, hv, hvp⟩ := hlink.2
  have hP0' : ∃ v, (l ++ [z]).head?.bind (vs.data[·]?) = some v ∧ v.intersect = false := by
    rw [← eP, hP0]
    have h0 : 0 < ps.length := by omega
    obtain ⟨v, h1, -, h2, -⟩ := hP.corner 0 ps[0] (List.getElem?_eq_getElem h0)
    exact ⟨v, h1, h2⟩
  obtain ⟨q, at', blk, e3, hblk, ⟨ref, href, hat⟩, hfind⟩ := findIndex_spec (A := A) (data := vs.data) alpha l z (by rw [← eP]; exact hPchain)
    (fun x hx => hex x (hlt x (by rw [e1, eP]; exact List.mem_append_left _ hx))) hP0'
  rw [← eP] at e3
  have hll : l.length < vs.data.length := by
    have h1 : ring.length = vs.size := by rw [T.all.length_eq, List.length_range, hsz]
    have h2 : ring.length = l.length + 1 + R.length := by rw [e1, eP]; simp; omega
    omega
  -- what follows `at'`
  obtain ⟨old, post', e4⟩ : ∃ old post', blk ++ i :: post = old :: post' := by
    cases blk with
    | nil => exact ⟨i, post, rfl⟩
    | cons y b => exact ⟨y, b ++ i :: post, rfl⟩
  have hcl : ring ++ [0] = q ++ at' :: old :: post' := by rw [hclosed, e3, List.append_assoc, List.cons_append, e4]
  have hch : (q ++ at' :: old :: post').IsChain (Link vs.data) := by rw [← hcl]; exact T.closed.2
  have hlk : Link vs.data at' old := (List.isChain_append_cons_cons.1 hch).2.1
  obtain ⟨⟨ref', href', hnext⟩, -⟩ := hlk
  rw [href] at href'
  cases href'
  have hring_eq : ring = q ++ at' :: blk ++ R := by rw [e1, e3]
  have hatm : at' ∈ ring := by rw [hring_eq]; simp
  have holdm : old < vs.size := by
    have : old ∈ ring ++ [0] := by rw [hcl]; simp
    rcases List.mem_append.1 this with h | h
    · exact hlt _ h
    · rw [List.mem_singleton] at h
      omega
  obtain ⟨w, hw⟩ := hex old holdm
  obtain ⟨data', ec, len, hn, hp, l1, l2, hnew, hsame⟩ :=
    create_ok (vs := vs) pos alpha (by omega) c2 c3 (hlt _ hatm) holdm href hnext hw hm
  refine ⟨v, at', hv, by rw [hvp]; exact hfind _ (by omega), _, ec, ?_, rfl, len⟩
  have hdrop : (q ++ at' :: old :: post').dropLast.Nodup := by rw [← hcl, List.dropLast_concat]; exact hnd
  have htail : (q ++ at' :: old :: post').tail.Nodup := by
    rw [← hcl]
    have h0 := T.closed.1
    cases hr : ring with
    | nil => rw [hr] at h0; cases h0
    | cons a t =>
      rw [hr] at h0 hnd
      cases h0
      rw [List.nodup_cons] at hnd
      rw [List.cons_append, List.tail_cons, List.nodup_append]
      refine ⟨hnd.2, by simp, fun x hx y hy => ?_⟩
      rw [List.mem_singleton] at hy
      subst hy
      rintro rfl
      exact hnd.1 hx
  have hNc : vs.size ∉ q ++ at' :: old :: post' := by
    rw [← hcl]
    intro h
    rcases List.mem_append.1 h with h | h
    · exact hN h
    · rw [List.mem_singleton] at h
      have : 0 ∈ ring := List.mem_of_head? T.closed.1
      exact absurd (hlt 0 this) (by omega)
  have hchain' := chain_insert hn hp l1 l2 hch hdrop htail hNc
  have hperm : (q ++ at' :: vs.size :: (blk ++ R)).Perm (vs.size :: ring) := by
    rw [hring_eq]
    have : q ++ at' :: vs.size :: (blk ++ R) = (q ++ [at']) ++ vs.size :: (blk ++ R) := by simp
    rw [this]
    refine List.perm_middle.trans ?_
    simp
  have hnd' : (q ++ at' :: vs.size :: (blk ++ R)).Nodup := by
    rw [hperm.nodup_iff, List.nodup_cons]
    exact ⟨hN, hnd⟩
  have hfil : ((q ++ at' :: vs.size :: (blk ++ R)).filter fun x => decide (x ≠ vs.size)) = ring := by
    have h1 : vs.size ∉ q ++ [at'] := fun h => hN (by rw [hring_eq]; simp at h ⊢; tauto)
    have h2 : vs.size ∉ blk ++ R := fun h => hN (by rw [hring_eq]; simp at h ⊢; tauto)
    have : q ++ at' :: vs.size :: (blk ++ R) = (q ++ [at']) ++ vs.size :: (blk ++ R) := by simp
    rw [this, List.filter_append, List.filter_cons, if_neg (by simp), filter_ne h1, filter_ne h2, hring_eq]
    simp
  have hcorner_of : ∀ y ∈ ring, ∀ v, vs.data[y]? = some v → v.intersect = true → ∃ (k : Nat) (c : Crossing F), y = ps.length + k ∧ cs[k]? = some c ∧
      v.alpha = c.alpha := by
    intro y hy v hv hi'
    by_cases h : y < ps.length
    · obtain ⟨v', h1, -, h2, -⟩ := hP.corner y ps[y] (List.getElem?_eq_getElem h)
      rw [hv] at h1
      cases h1
      rw [hi'] at h2
      cases h2
    · have hy' := hlt y hy
      obtain ⟨k, rfl⟩ : ∃ k, y = ps.length + k := ⟨y - ps.length, by omega⟩
      have hk : k < cs.length := by omega
      obtain ⟨v', h1, -, h2, -⟩ := hP.crossing k cs[k] (List.getElem?_eq_getElem hk)
      rw [hv] at h1
      cases h1
      exact ⟨k, cs[k], rfl, List.getElem?_eq_getElem hk, h2⟩
  refine ⟨hP.original, by simp only [List.length_append, List.length_singleton]; omega, fun j p hj => ?_, fun k c hk => ?_,
    q ++ at' :: vs.size :: (blk ++ R), ⟨?_, ?_⟩, ?_, ?_, ?_, ?_⟩
  · obtain ⟨v, h1, h2⟩ := hP.corner j p hj
    have hjl := (List.getElem?_eq_some_iff.1 hj).1
    obtain ⟨v', h3, s⟩ := hsame j v (by omega) h1
    exact ⟨v', h3, by rw [s.pos, s.intersect, s.exit, s.processed]; exact h2⟩
  · by_cases e : k < cs.length
    · rw [List.getElem?_append_left e] at hk
      obtain ⟨v, h1, h2⟩ := hP.crossing k c hk
      obtain ⟨v', h3, s⟩ := hsame _ v (by omega) h1
      exact ⟨v', h3, by rw [s.pos, s.intersect, s.exit, s.processed, s.alpha, s.neighbor]; exact h2⟩
    · rw [List.getElem?_append_right (by omega)] at hk
      have : k = cs.length := by
        have := (List.getElem?_eq_some_iff.1 hk).1
        simp at this
        omega
      subst this
      rw [Nat.sub_self] at hk
      cases hk
      obtain ⟨v, h1, h2⟩ := hnew
      exact ⟨v, by rw [← hsz]; exact h1, h2⟩
  · have : ∀ X : List Nat, (q ++ at' :: X).head? = (q ++ at' :: blk).head? := fun X => by cases q <;> simp
    rw [this, ← e3]
    exact hP0
  · have : q ++ at' :: vs.size :: (blk ++ R) ++ [0] = q ++ at' :: vs.size :: old :: post' := by
      rw [← e4, ← e2]
      simp
    rw [this]
    exact hchain'
  · refine hperm.trans ?_
    rw [List.length_append, List.length_singleton, ← Nat.add_assoc, List.range_succ, ← hsz]
    refine (List.Perm.cons _ (hsz ▸ T.all)).trans ?_
    exact (List.perm_append_singleton _ _).symm
  · rw [← T.corners, ← filter_filter_ne (N := vs.size) (by omega), hfil]
  · intro pre k post2 c h hk
    by_cases e : k < cs.length
    · rw [List.getElem?_append_left e] at hk
      have h' := hfil
      rw [h, List.filter_append, List.filter_cons, if_pos (by simp; omega)] at h'
      rw [← T.place _ k _ c h'.symm hk, filter_filter_ne (by omega)]
    · rw [List.getElem?_append_right (by omega)] at hk
      have : k = cs.length := by
        have := (List.getElem?_eq_some_iff.1 hk).1
        simp at this
        omega
      subst this
      rw [Nat.sub_self] at hk
      cases hk
      rw [← hsz] at h
      have h2 : (q ++ [at']) ++ vs.size :: (blk ++ R) = pre ++ vs.size :: post2 := by rw [← h]; simp
      obtain ⟨h3, -⟩ := split_unique h2 (by rw [h2, ← h]; exact hnd')
      rw [← h3]
      simp only
      rw [← hcount, e3]
      have hb : (blk.filter fun x => decide (x < ps.length)) = [] := by
        refine List.filter_eq_nil_iff.2 fun y hy => ?_
        obtain ⟨v, h1, h2, -⟩ := hblk y hy
        obtain ⟨k, c, rfl, -⟩ := hcorner_of y (by rw [hring_eq]; simp [hy]) v h1 h2
        simp
      rw [show q ++ at' :: blk = q ++ [at'] ++ blk by simp, List.filter_append (q ++ [at']) blk, hb, List.append_nil]
  · intro pre k k2 post2 c d h hk hk2
    by_cases ek : k < cs.length
    · rw [List.getElem?_append_left ek] at hk
      by_cases ek2 : k2 < cs.length
      · rw [List.getElem?_append_left ek2] at hk2
        have h' := hfil
        rw [h, List.filter_append, List.filter_cons, if_pos (by simp; omega), List.filter_cons, if_pos (by simp; omega)] at h'
        exact T.sorted _ k k2 _ c d h'.symm hk hk2
      · rw [List.getElem?_append_right (by omega)] at hk2
        have : k2 = cs.length := by
          have := (List.getElem?_eq_some_iff.1 hk2).1
          simp at this
          omega
        subst this
        rw [Nat.sub_self] at hk2
        cases hk2
        rw [← hsz] at h
        have h2 : (q ++ [at']) ++ vs.size :: (blk ++ R) = (pre ++ [ps.length + k]) ++ vs.size :: post2 := by simpa using h
        obtain ⟨h3, -⟩ := split_unique h2 (by simpa using hnd')
        have h4 : at' = ps.length + k := by
          have := congrArg List.getLast? h3
          simpa using this
        obtain ⟨v', h5, -, h6, -, h7, -⟩ := hP.crossing k c hk
        rw [← h4, href] at h5
        cases h5
        rw [h7, Bool.true_and, h6] at hat
        exact hat
    · rw [List.getElem?_append_right (by omega)] at hk
      have : k = cs.length := by
        have := (List.getElem?_eq_some_iff.1 hk).1
        simp at this
        omega
      subst this
      rw [Nat.sub_self] at hk
      cases hk
      rw [← hsz] at h
      have h2 : (q ++ [at']) ++ vs.size :: (blk ++ R) = pre ++ vs.size :: ((ps.length + k2) :: post2) := by simpa using h
      obtain ⟨-, h3⟩ := split_unique h2 (by simpa using hnd')
      cases hb : blk with
      | nil =>
        rw [hb, List.nil_append] at h3
        have := hR _ _ h3
        omega
      | cons y b =>
        rw [hb] at h3
        cases h3
        obtain ⟨v', h5, h6, h7⟩ := hblk (ps.length + k2) (by rw [hb]; simp)
        obtain ⟨k3, c3', h8, h9, h10⟩ := hcorner_of (ps.length + k2) (by rw [hring_eq, hb]; simp) v' h5 h6
        have : k3 = k2 := by omega
        subst this
        by_cases ek2 : k3 < cs.length
        · rw [List.getElem?_append_left ek2, h9] at hk2
          cases hk2
          rw [← h10]
          exact hA _ _ h7
        · rw [List.getElem?_eq_none (by omega)] at h9
          cases h9

end Tm.Poly
