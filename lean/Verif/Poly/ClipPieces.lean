import Verif.Poly.ClipSides
import Verif.Poly.ClipFind

/-! # Pieces between the vertices of a polygon -/

namespace Tm.Poly
open Spec

/-- The crossings as they are stored. -/
def Stored (cs : List (Crossing X)) (ms : List (Nat × Nat × ℚ)) : Prop :=
  List.Forall₂ (fun c m => c.side = m.1 ∧ c.alpha = .fin m.2.2) cs ms

variable {ps qs : List (V ℚ)} {ms : List (Nat × Nat × ℚ)} {cs : List (Crossing X)} {data : List (CV X)} {n : Nat} {ring : List Nat}

theorem stored_get (h : Stored cs ms) {k : Nat} {m : Nat × Nat × ℚ} (hm : ms[k]? = some m) :
    ∃ c, cs[k]? = some c ∧ c.side = m.1 ∧ c.alpha = .fin m.2.2 := by
  have hk := (List.getElem?_eq_some_iff.1 hm)
  have hl := List.Forall₂.length_eq h
  have hk1 := hk.1
  have := List.Forall₂.get h (i := k) (by omega) hk1
  simp only [List.get_eq_getElem] at this
  rw [hk.2] at this
  exact ⟨_, List.getElem?_eq_getElem (by omega), this⟩

theorem ordered0 (T : Tour exact data n cs ring) (hS : Stored cs ms) {u z : List Nat} {k l : Nat} {m m' : Nat × Nat × ℚ}
    (e : ring = u ++ (n + k) :: (n + l) :: z) (hm : ms[k]? = some m) (hm' : ms[l]? = some m') : m.2.2 ≤ m'.2.2 := by
  obtain ⟨c, h1, -, h2⟩ := stored_get hS hm
  obtain ⟨d, h3, -, h4⟩ := stored_get hS hm'
  have := T.sorted u k l z c d e h1 h3
  rw [h2, h4, exact_lt, decide_eq_false_iff_not, not_lt] at this
  exact this

/-- Crossings without a corner in between are in order. -/
theorem ordered (T : Tour exact data n cs ring) (hS : Stored cs ms) : ∀ (w : List Nat) {u z : List Nat} {k l : Nat} {m m' : Nat × Nat × ℚ},
    ring = u ++ (n + k) :: w ++ (n + l) :: z → (w.filter fun x => decide (x < n)) = [] → ms[k]? = some m → ms[l]? = some m' → m.2.2 ≤ m'.2.2
  | [], u, z, k, l, m, m', e, _, hm, hm' => ordered0 T hS (u := u) (z := z) (by rw [e]; simp) hm hm'
  | a :: w, u, z, k, l, m, m', e, hw, hm, hm' => by
    rw [List.filter_cons] at hw
    by_cases ha : a < n
    · rw [if_pos (by simpa using ha)] at hw
      cases hw
    · rw [if_neg (by simpa using ha)] at hw
      obtain ⟨k', rfl⟩ : ∃ k', a = n + k' := ⟨a - n, by omega⟩
      have hr : n + k' ∈ ring := by rw [e]; simp
      have hk' : k' < ms.length := by
        have := List.mem_range.1 (T.all.subset hr)
        rw [List.Forall₂.length_eq hS] at this
        omega
      have h1 := ordered0 T hS (u := u) (z := w ++ (n + l) :: z) (k := k) (l := k') (by rw [e]; simp) hm (List.getElem?_eq_getElem hk')
      have h2 := ordered T hS w (u := u ++ [n + k]) (z := z) (k := k') (l := l) (by rw [e]; simp) hw (List.getElem?_eq_getElem hk') hm'
      exact le_trans h1 h2

/-- The crossings before a place. -/
def before (n i : Nat) (t : ℚ) (m : Nat × Nat × ℚ) : Bool := decide (1 ≤ m.1 ∧ m.1 < i ∨ m.1 = (if i = n then 0 else i) ∧ m.2.2 < t)

theorem before_iff (T : Tour exact data n cs ring) (hS : Stored cs ms) (hn : 0 < n) {pre rest : List Nat} {x y : Nat} {i : Nat}
    (e : ring = pre ++ [x] ++ rest) (hyr : (rest ++ [0]).head? = some y) (hi : ((pre ++ [x]).filter fun z => decide (z < n)).length = i)
    (hin : i ≤ n) (hside : ∀ (k : Nat) (m : Nat × Nat × ℚ), ms[k]? = some m → m.1 < n) {t : ℚ}
    (hx : ∀ k m, x = n + k → ms[k]? = some m → m.2.2 < t) (hy : ∀ k m, y = n + k → ms[k]? = some m → t < m.2.2) {k : Nat} {m : Nat × Nat × ℚ}
    (hm : ms[k]? = some m) : n + k ∈ pre ++ [x] ↔ before n i t m = true := by
  have hk := (List.getElem?_eq_some_iff.1 hm).1
  have hr : n + k ∈ ring := T.all.symm.subset (List.mem_range.2 (by rw [List.Forall₂.length_eq hS]; omega))
  obtain ⟨c, hc, hcs, hca⟩ := stored_get hS hm
  unfold before
  rw [decide_eq_true_eq]
  by_cases hmem : n + k ∈ pre ++ [x]
  · simp only [hmem, true_iff]
    obtain ⟨u, w, ew⟩ := List.append_of_mem hmem
    have hpl := T.place u k (w ++ rest) c (by rw [e, ew]; simp) hc
    rw [ew, List.filter_append, List.length_append, List.filter_cons, if_neg (by simp), hpl, hcs] at hi
    by_cases hw : (w.filter fun z => decide (z < n)) = []
    · right
      rw [hw, List.length_nil, Nat.add_zero] at hi
      have hmn := hside k m hm
      refine ⟨by by_cases h : m.1 = 0 <;> simp only [h, if_true, if_false] at hi <;> split <;> omega, ?_⟩
      rcases List.eq_nil_or_concat w with rfl | ⟨w', z, rfl⟩
      · have : x = n + k := by
          have := congrArg List.getLast? ew
          simpa using this
        exact hx k m this hm
      · have hz : x = z := by
          have : pre ++ [x] = (u ++ (n + k) :: w') ++ [z] := by rw [ew]; simp
          exact List.singleton_inj.1 (List.append_inj' this rfl).2
        subst hz
        have hxn : ¬ x < n := by
          intro h
          rw [List.concat_eq_append, List.filter_append, List.filter_cons, if_pos (by simpa using h)] at hw
          simp at hw
        obtain ⟨l, rfl⟩ : ∃ l, x = n + l := ⟨x - n, by omega⟩
        have hl : l < ms.length := by
          have := List.mem_range.1 (T.all.subset (show n + l ∈ ring by rw [e]; simp))
          rw [List.Forall₂.length_eq hS] at this
          omega
        have h1 := ordered T hS w' (u := u) (z := rest) (k := k) (l := l) (by rw [e, ew]; simp)
          (by rw [List.concat_eq_append, List.filter_append] at hw; exact (List.append_eq_nil_iff.1 hw).1) hm (List.getElem?_eq_getElem hl)
        exact lt_of_le_of_lt h1 (hx l _ rfl (List.getElem?_eq_getElem hl))
    · left
      have := List.length_pos_iff.2 hw
      by_cases h : m.1 = 0
      · rw [if_pos h] at hi
        omega
      · rw [if_neg h] at hi
        omega
  · simp only [hmem, false_iff]
    have hmr : n + k ∈ rest := by
      rw [e] at hr
      exact (List.mem_append.1 hr).resolve_left hmem
    obtain ⟨u, w, ew⟩ := List.append_of_mem hmr
    have hpl := T.place (pre ++ [x] ++ u) k w c (by rw [e, ew]; simp) hc
    rw [List.filter_append, List.length_append, hi, hcs] at hpl
    by_cases hu : (u.filter fun z => decide (z < n)) = []
    · rw [hu, List.length_nil, Nat.add_zero] at hpl
      rintro (⟨h1, h2⟩ | ⟨-, h2⟩)
      · rw [if_neg (by omega)] at hpl
        omega
      · have : t < m.2.2 := by
          cases u with
          | nil =>
            rw [ew] at hyr
            simp at hyr
            exact hy k m hyr.symm hm
          | cons z u =>
            rw [ew] at hyr
            simp at hyr
            subst hyr
            have hzn : ¬ z < n := by
              intro h
              rw [List.filter_cons, if_pos (by simpa using h)] at hu
              cases hu
            obtain ⟨l, rfl⟩ : ∃ l, z = n + l := ⟨z - n, by omega⟩
            have hl : l < ms.length := by
              have := List.mem_range.1 (T.all.subset (show n + l ∈ ring by rw [e, ew]; simp))
              rw [List.Forall₂.length_eq hS] at this
              omega
            rw [List.filter_cons, if_neg (by simp)] at hu
            have h1 := ordered T hS u (u := pre ++ [x]) (z := w) (k := l) (l := k) (by rw [e, ew]; simp) hu (List.getElem?_eq_getElem hl) hm
            exact lt_of_lt_of_le (hy l _ rfl (List.getElem?_eq_getElem hl)) h1
        linarith
    · have := List.length_pos_iff.2 hu
      rintro (⟨h1, h2⟩ | ⟨h1, -⟩)
      · rw [if_neg (by omega)] at hpl
        omega
      · by_cases h : i = n
        · rw [if_pos h] at h1
          rw [if_pos h1] at hpl
          omega
        · rw [if_neg h] at h1
          by_cases h0 : m.1 = 0
          · rw [if_pos h0] at hpl
            rw [h0] at h1
            rw [← h1] at hi
            have : 0 ∈ pre ++ [x] := by
              have := T.closed.1
              rw [e] at this
              cases pre with
              | nil => simpa using this.symm
              | cons z pre => simp at this; simp [this]
            have h3 := List.length_eq_zero_iff.1 hi
            have : 0 ∈ (pre ++ [x]).filter fun z => decide (z < n) := List.mem_filter.2 ⟨this, by simpa using hn⟩
            rw [h3] at this
            cases this
          · rw [if_neg h0] at hpl
            omega

theorem odd_before (T : Tour exact data n cs ring) (hS : Stored cs ms) (hn : 0 < n) {pre rest : List Nat} {x y : Nat} {i : Nat}
    (e : ring = pre ++ [x] ++ rest) (hyr : (rest ++ [0]).head? = some y) (hi : ((pre ++ [x]).filter fun z => decide (z < n)).length = i)
    (hin : i ≤ n) (hside : ∀ (k : Nat) (m : Nat × Nat × ℚ), ms[k]? = some m → m.1 < n) {t : ℚ}
    (hx : ∀ k m, x = n + k → ms[k]? = some m → m.2.2 < t) (hy : ∀ k m, y = n + k → ms[k]? = some m → t < m.2.2) :
    oddCrossings n (pre ++ [x]) = odd ms (before n i t) := by
  unfold odd oddCrossings
  rw [parB_list (before n i t) ms, ← List.length_map (f := fun z => z - n)]
  have hnd : ring.Nodup := T.all.nodup_iff.2 List.nodup_range
  have hnd' : (pre ++ [x]).Nodup := by
    rw [e] at hnd
    exact (List.nodup_append'.1 hnd).1
  refine odd_list ?_ fun k => ?_
  · have h := hnd'.filter (fun z => decide (n ≤ z))
    unfold List.Nodup at h ⊢
    rw [List.pairwise_map]
    refine h.imp_of_mem fun {a b} ha hb hab e => hab ?_
    have h1 := (List.mem_filter.1 ha).2
    have h2 := (List.mem_filter.1 hb).2
    rw [decide_eq_true_eq] at h1 h2
    omega
  · have hkm : k ∈ ((pre ++ [x]).filter fun z => decide (n ≤ z)).map (fun z => z - n) ↔ n + k ∈ pre ++ [x] := by
      rw [List.mem_map]
      constructor
      · rintro ⟨z, hz, rfl⟩
        have := List.mem_filter.1 hz
        rw [decide_eq_true_eq] at this
        rw [show n + (z - n) = z by omega]
        exact this.1
      · intro h
        exact ⟨n + k, List.mem_filter.2 ⟨h, by simp⟩, by simp⟩
    rw [hkm]
    constructor
    · intro h
      have hk : k < ms.length := by
        have := List.mem_range.1 (T.all.subset (show n + k ∈ ring by rw [e]; exact List.mem_append_left _ h))
        rw [List.Forall₂.length_eq hS] at this
        omega
      refine ⟨hk, ?_⟩
      rw [List.getElem?_eq_getElem hk]
      exact (before_iff T hS hn e hyr hi hin hside hx hy (List.getElem?_eq_getElem hk)).1 h
    · rintro ⟨hk, h⟩
      rw [List.getElem?_eq_getElem hk] at h
      exact (before_iff T hS hn e hyr hi hin hside hx hy (List.getElem?_eq_getElem hk)).2 h

/-- The point of a vertex of a polygon with crossings. -/
def PosOf (ps : List (V ℚ)) (ms : List (Nat × Nat × ℚ)) (x : Nat) (v : V ℚ) : Prop :=
  ps[x]? = some v ∨ ∃ k m p q, x = ps.length + k ∧ ms[k]? = some m ∧ Side ps m.1 p q ∧ v = along p q m.2.2

/-- A piece of nonzero length is inside, or all of it is outside. -/
theorem piece_inside (H : Crossings ps qs ms) (T : Tour exact data ps.length cs ring) (hS : Stored cs ms) {p0 : V ℚ} (h0 : ps[0]? = some p0)
    {b0 : Bool} (hb0 : Inside qs p0 b0) {x y : Nat} (hxy : (x, y) ∈ sides ring) {v w : V ℚ} (hv : PosOf ps ms x v) (hw : PosOf ps ms y w)
    (hne : v ≠ w) {τ : ℚ} (h1 : 0 < τ) (h2 : τ < 1) (inside : Bool) :
    Inside qs (along v w τ) inside ↔ ((inside = true) ↔ InsidePiece ps.length ring b0 x y) := by
  have hn : 0 < ps.length := (List.getElem?_eq_some_iff.1 h0).1
  have hnd : ring.Nodup := T.all.nodup_iff.2 List.nodup_range
  -- the place of the piece
  obtain ⟨pre, rest, e, hyr⟩ : ∃ pre rest, ring = pre ++ [x] ++ rest ∧ (rest ++ [0]).head? = some y := by
    have hh := T.closed.1
    cases ring with
    | nil => simp at hh
    | cons z l =>
      simp at hh
      subst hh
      rw [sides_edges, mem_edges] at hxy
      obtain ⟨pre, post, e⟩ := hxy
      rcases List.eq_nil_or_concat post with rfl | ⟨post', a, rfl⟩
      · refine ⟨pre, [], ?_, ?_⟩
        · have := congrArg List.dropLast e
          rw [List.dropLast_concat, show pre ++ [x, y] = pre ++ [x] ++ [y] by simp, List.dropLast_concat] at this
          rw [this]
          simp
        · have : 0 :: l ++ [0] = (pre ++ [x]) ++ [y] := by rw [e]; simp
          have := List.singleton_inj.1 (List.append_inj' this rfl).2
          simp [this]
      · refine ⟨pre, y :: post', ?_, rfl⟩
        have := congrArg List.dropLast e
        rw [List.dropLast_concat, show pre ++ x :: y :: post'.concat a = pre ++ x :: y :: post' ++ [a] by simp, List.dropLast_concat] at this
        rw [this]
        simp
  -- the corners before it
  obtain ⟨i, hi⟩ : ∃ i, ((pre ++ [x]).filter fun z => decide (z < ps.length)).length = i := ⟨_, rfl⟩
  have hcor := T.corners
  rw [e, List.filter_append] at hcor
  have hfi : ((pre ++ [x]).filter fun z => decide (z < ps.length)) = List.range i := by
    have := congrArg (List.take i) hcor
    rw [List.take_append_of_le_length (by omega), List.take_of_length_le (by omega), List.take_range] at this
    rw [this] at hi
    rw [List.length_range] at hi
    rw [this, hi]
  have hin : i ≤ ps.length := by
    have := congrArg List.length hcor
    rw [List.length_append, hi, List.length_range] at this
    omega
  have hi0 : 0 < i := by
    have : 0 ∈ pre ++ [x] := by
      have := T.closed.1
      rw [e] at this
      cases pre with
      | nil => simpa using this.symm
      | cons z pre => simp at this; simp [this]
    have : 0 ∈ (pre ++ [x]).filter fun z => decide (z < ps.length) := List.mem_filter.2 ⟨this, by simpa using hn⟩
    rw [hfi] at this
    exact List.mem_range.1 this
  -- the side
  have hlt : i - 1 < ps.length := by omega
  have hci : (if i = ps.length then 0 else i) < ps.length := by split <;> omega
  obtain ⟨p, hp⟩ : ∃ p, ps[i - 1]? = some p := ⟨_, List.getElem?_eq_getElem hlt⟩
  obtain ⟨q, hq⟩ : ∃ q, ps[if i = ps.length then 0 else i]? = some q := ⟨_, List.getElem?_eq_getElem hci⟩
  have hside : Side ps (if i = ps.length then 0 else i) p q := by
    refine ⟨hq, ?_⟩
    by_cases h : i = ps.length
    · rw [if_pos h, if_pos rfl, ← h]
      exact hp
    · rw [if_neg h, if_neg (by omega)]
      exact hp
  have halpha : ∀ (k : Nat) (m : Nat × Nat × ℚ), ms[k]? = some m → 0 < m.2.2 ∧ m.2.2 < 1 := by
    rintro k ⟨i', j, a⟩ hm
    obtain ⟨p', q', r, s, y', g1, g2, g3⟩ := (H.mem _ _ _).1 (List.mem_of_getElem? hm)
    have := H.noTouch _ _ _ _ _ _ g1 g2 _ _ g3
    exact ⟨this.2.1, this.2.2.1⟩
  have hplace : ∀ (pre' : List Nat) (k : Nat) (post' : List Nat) (m : Nat × Nat × ℚ), ring = pre' ++ (ps.length + k) :: post' → ms[k]? = some m →
      (pre'.filter fun x => decide (x < ps.length)).length = i → m.1 = if i = ps.length then 0 else i := by
    intro pre' k post' m e' hm hl
    obtain ⟨c, hc, hcs, -⟩ := stored_get hS hm
    have := T.place pre' k post' c e' hc
    rw [hl, hcs] at this
    by_cases h : m.1 = 0
    · rw [if_pos h] at this
      rw [if_pos this, h]
    · rw [if_neg h] at this
      have h4 : m.1 < ps.length := by
        obtain ⟨i', j, a⟩ := m
        obtain ⟨p', q', r, s, y', g1, -⟩ := (H.mem _ _ _).1 (List.mem_of_getElem? hm)
        exact (List.getElem?_eq_some_iff.1 g1.1).1
      rw [if_neg (by omega), this]
  have hsm : ∀ (k : Nat) (m : Nat × Nat × ℚ), ms[k]? = some m → m.1 < ps.length := by
    rintro k ⟨i', j, a⟩ hm
    obtain ⟨p', q', r, s, y', g1, -⟩ := (H.mem _ _ _).1 (List.mem_of_getElem? hm)
    exact (List.getElem?_eq_some_iff.1 g1.1).1
  -- where the piece begins
  obtain ⟨ax, hax, hxk⟩ : ∃ ax, v = along p q ax ∧ (x < ps.length ∧ ax = 0 ∨
      ∃ k m, x = ps.length + k ∧ ms[k]? = some m ∧ m.2.2 = ax) := by
    rcases hv with hv | ⟨k, m, p', q', rfl, hm, hs', rfl⟩
    · have hx : x < ps.length := (List.getElem?_eq_some_iff.1 hv).1
      have : x = i - 1 := by
        rw [List.filter_append, List.filter_cons, if_pos (by simpa using hx)] at hfi
        have := congrArg List.getLast? hfi
        rw [List.getLast?_range, if_neg (by omega)] at this
        simpa using this
      subst this
      rw [hp] at hv
      cases hv
      exact ⟨0, by unfold along; simp, .inl ⟨hx, rfl⟩⟩
    · have hc := hplace pre k rest m (by rw [e]; simp) hm (by
        rw [List.filter_append, List.filter_cons, if_neg (by simp)] at hi
        simpa using hi)
      rw [hc] at hs'
      obtain ⟨rfl, rfl⟩ := side_unique hside hs'
      exact ⟨m.2.2, rfl, .inr ⟨k, m, rfl, hm, rfl⟩⟩
  -- where it ends
  obtain ⟨ay, hay, hyk⟩ : ∃ ay, w = along p q ay ∧ (y < ps.length ∧ ay = 1 ∨
      ∃ k m, y = ps.length + k ∧ ms[k]? = some m ∧ m.2.2 = ay) := by
    rcases hw with hw | ⟨k, m, p', q', rfl, hm, hs', rfl⟩
    · have hy : y < ps.length := (List.getElem?_eq_some_iff.1 hw).1
      have : y = if i = ps.length then 0 else i := by
        cases rest with
        | nil =>
          simp at hyr
          have := congrArg List.length hcor
          simp only [List.filter_nil, List.append_nil, List.length_range] at this
          rw [if_pos (by omega), hyr]
        | cons z rest =>
          simp at hyr
          subst hyr
          rw [List.filter_cons, if_pos (by simpa using hy), hfi] at hcor
          have h3 := congrArg (fun l : List Nat => l[i]?) hcor
          rw [List.getElem?_append_right (by simp), List.length_range, Nat.sub_self] at h3
          have h4 := congrArg List.length hcor
          simp only [List.length_append, List.length_range, List.length_cons] at h4
          rw [List.getElem?_range (by omega)] at h3
          simp at h3
          rw [if_neg (by omega), h3]
      rw [this, hq] at hw
      cases hw
      exact ⟨1, by unfold along; cases w; simp, .inl ⟨hy, rfl⟩⟩
    · have hc : m.1 = if i = ps.length then 0 else i := by
        cases rest with
        | nil =>
          simp at hyr
          omega
        | cons z rest =>
          simp at hyr
          subst hyr
          exact hplace (pre ++ [x]) k rest m e hm hi
      rw [hc] at hs'
      obtain ⟨rfl, rfl⟩ := side_unique hside hs'
      exact ⟨m.2.2, rfl, .inr ⟨k, m, rfl, hm, rfl⟩⟩
  -- the piece has a length
  have hlen : ∀ k m, x = ps.length + k → ms[k]? = some m → ∀ l m', y = ps.length + l → ms[l]? = some m' → m.2.2 ≤ m'.2.2 := by
    rintro k m rfl hm l m' rfl hm'
    cases rest with
    | nil =>
      simp at hyr
      omega
    | cons z rest =>
      simp at hyr
      subst hyr
      exact ordered0 T hS (u := pre) (z := rest) (by rw [e]; simp) hm hm'
  have hax0 : 0 ≤ ax := by
    rcases hxk with ⟨-, h⟩ | ⟨k, m, -, hm, h⟩
    · exact h.ge
    · rw [← h]
      exact (halpha k m hm).1.le
  have hay1 : ay ≤ 1 := by
    rcases hyk with ⟨-, h⟩ | ⟨k, m, -, hm, h⟩
    · exact h.le
    · rw [← h]
      exact (halpha k m hm).2.le
  have haxy : ax < ay := by
    refine lt_of_le_of_ne ?_ fun h => hne (by rw [hax, hay, h])
    rcases hxk with ⟨-, h⟩ | ⟨k, m, ek, hm, h⟩
    · rw [h]
      rcases hyk with ⟨-, h'⟩ | ⟨k, m, -, hm, h'⟩
      · rw [h']
        exact zero_le_one
      · rw [← h']
        exact (halpha k m hm).1.le
    · rcases hyk with ⟨-, h'⟩ | ⟨l, m', el, hm', h'⟩
      · rw [h', ← h]
        exact (halpha k m hm).2.le
      · rw [← h, ← h']
        exact hlen k m ek hm l m' el hm'
  -- the point
  have hat : ax < ax + τ * (ay - ax) := by nlinarith
  have hta : ax + τ * (ay - ax) < ay := by nlinarith
  have hpt : along v w τ = along p q (ax + τ * (ay - ax)) := by
    rw [hax, hay]
    unfold along
    simp only [V.mk.injEq]
    constructor <;> ring
  have hx' : ∀ k m, x = ps.length + k → ms[k]? = some m → m.2.2 < ax + τ * (ay - ax) := by
    intro k m ek hm
    rcases hxk with ⟨h, -⟩ | ⟨k', m', ek', hm', h⟩
    · omega
    · have : k = k' := by omega
      subst this
      rw [hm] at hm'
      cases hm'
      rw [h]
      exact hat
  have hy' : ∀ k m, y = ps.length + k → ms[k]? = some m → ax + τ * (ay - ax) < m.2.2 := by
    intro k m ek hm
    rcases hyk with ⟨h, -⟩ | ⟨k', m', ek', hm', h⟩
    · omega
    · have : k = k' := by omega
      subst this
      rw [hm] at hm'
      cases hm'
      rw [h]
      exact hta
  have hodd := odd_before T hS hn e hyr hi hin hsm hx' hy'
  have hnot : ∀ j, ((if i = ps.length then 0 else i), j, ax + τ * (ay - ax)) ∉ ms := by
    intro j hm
    obtain ⟨k, hk⟩ := List.getElem?_of_mem hm
    have b1 := before_iff T hS hn e hyr hi hin hsm hx' hy' hk
    -- the crossing would be at the point itself: compare with a place slightly behind it
    have b2 := before_iff T hS hn e hyr hi hin hsm (t := (ax + τ * (ay - ax) + ay) / 2)
      (fun k m ek hm => by have := hx' k m ek hm; linarith) (fun k m ek hm => by
        rcases hyk with ⟨h, -⟩ | ⟨k', m', ek', hm', h⟩
        · omega
        · have : k = k' := by omega
          subst this
          rw [hm] at hm'
          cases hm'
          rw [h]
          linarith) hk
    have f1 : before ps.length i (ax + τ * (ay - ax)) ((if i = ps.length then 0 else i), j, ax + τ * (ay - ax)) = false := by
      unfold before
      rw [decide_eq_false_iff_not]
      rintro (⟨h3, h4⟩ | ⟨-, h4⟩)
      · by_cases h5 : i = ps.length
        · simp only [if_pos h5] at h3
          omega
        · simp only [if_neg h5] at h4
          omega
      · exact lt_irrefl _ h4
    have f2 : before ps.length i ((ax + τ * (ay - ax) + ay) / 2) ((if i = ps.length then 0 else i), j, ax + τ * (ay - ax)) = true := by
      unfold before
      rw [decide_eq_true_eq]
      right
      exact ⟨rfl, by simp only; linarith⟩
    rw [f2] at b2
    rw [f1] at b1
    exact absurd (b1.1 (b2.2 rfl)) (by simp)
  have hin' := inside_point H h0 hb0 hi0 hp hside (t := ax + τ * (ay - ax)) (by linarith) (by linarith) hnot
  rw [← hpt] at hin'
  have e2 : (b0 != odd ms (before ps.length i (ax + τ * (ay - ax)))) = (b0 != oddCrossings ps.length (pre ++ [x])) := by rw [hodd]
  have hin2 : Inside qs (along v w τ) (b0 != oddCrossings ps.length (pre ++ [x])) := by
    rw [← e2]
    exact hin'
  have hpiece : InsidePiece ps.length ring b0 x y ↔ (b0 != oddCrossings ps.length (pre ++ [x])) = true := by
    constructor
    · rintro ⟨-, pre', post', e', h⟩
      rw [← state_split hnd e'] at h
      rw [← state_split (pre := pre) (post := rest) hnd (by rw [e]; simp)]
      exact h
    · exact fun h => ⟨hxy, pre, rest, by rw [e]; simp, h⟩
  rw [hpiece]
  constructor
  · intro h
    rw [inside_unique h hin2]
  · intro h
    have : inside = (b0 != oddCrossings ps.length (pre ++ [x])) := Bool.eq_iff_iff.2 h
    rw [this]
    exact hin2

end Tm.Poly
