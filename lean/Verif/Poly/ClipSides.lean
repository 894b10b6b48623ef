import Verif.Poly.ClipParity
import Verif.Poly.ClipRoute

/-! # Pieces of a polygon are inside of the other one or not -/

namespace Tm.Poly
open Spec

/-- Whether a number of numbers is odd. -/
def parB : Nat → (Nat → Bool) → Bool
  | 0, _ => false
  | n + 1, f => parB n f != f n

theorem parB_congr {f g : Nat → Bool} : ∀ {n : Nat}, (∀ i < n, f i = g i) → parB n f = parB n g
  | 0, _ => rfl
  | n + 1, h => by rw [parB, parB, parB_congr fun i hi => h i (Nat.lt_succ_of_lt hi), h n (Nat.lt_succ_self n)]

theorem parB_false : ∀ n : Nat, parB n (fun _ => false) = false
  | 0 => rfl
  | n + 1 => by rw [parB, parB_false]; rfl

theorem parB_xor (f g : Nat → Bool) : ∀ n : Nat, parB n (fun i => f i != g i) = (parB n f != parB n g)
  | 0 => rfl
  | n + 1 => by
    rw [parB, parB, parB, parB_xor f g n]
    generalize parB n f = a
    generalize parB n g = b
    generalize f n = c
    generalize g n = d
    revert a b c d
    decide

theorem parB_shift (c : Bool) (g : Nat → Bool) : ∀ n : Nat, parB (n + 1) (fun i => if i = 0 then c else g (i - 1)) = (c != parB n g)
  | 0 => by simp [parB]
  | n + 1 => by
    rw [parB, parB_shift c g n, parB, if_neg (by omega), Nat.add_sub_cancel]
    generalize parB n g = a
    generalize g n = b
    revert a b c
    decide

theorem parB_cycle (g : Nat → Bool) {n : Nat} (h : 0 < n) : parB n (fun i => g (if i = 0 then n - 1 else i - 1)) = parB n g := by
  obtain ⟨n, rfl⟩ : ∃ m, n = m + 1 := ⟨n - 1, by omega⟩
  have : parB (n + 1) (fun i => g (if i = 0 then n + 1 - 1 else i - 1)) = parB (n + 1) (fun i => if i = 0 then g n else g (i - 1)) :=
    parB_congr fun i _ => by
      by_cases h : i = 0
      · simp [h]
      · simp [h]
  rw [this, parB_shift, parB]
  generalize parB n g = a
  generalize g n = b
  revert a b
  decide

theorem odd_add (a b : Nat) : decide ((a + b) % 2 = 1) = (decide (a % 2 = 1) != decide (b % 2 = 1)) := by
  rcases Nat.mod_two_eq_zero_or_one a with h | h <;> rcases Nat.mod_two_eq_zero_or_one b with h' | h' <;>
    simp [Nat.add_mod, h, h']

theorem parB_range (f : Nat → Bool) : ∀ n : Nat, decide (((List.range n).filter f).length % 2 = 1) = parB n f
  | 0 => by simp [parB]
  | n + 1 => by
    rw [List.range_succ, List.filter_append, List.length_append, odd_add, parB_range f n, parB]
    by_cases h : f n = true <;> simp [h]

theorem odd_list {l : List Nat} {n : Nat} {f : Nat → Bool} (hn : l.Nodup) (h : ∀ i, i ∈ l ↔ i < n ∧ f i = true) :
    decide (l.length % 2 = 1) = parB n f := by
  have : l.Perm ((List.range n).filter f) := (List.perm_ext_iff_of_nodup hn (List.nodup_range.filter _)).2 fun i => by
    rw [h, List.mem_filter, List.mem_range]
  rw [this.length_eq, parB_range]

theorem parB_list {α : Type} (f : α → Bool) (l : List α) :
    decide ((l.filter f).length % 2 = 1) = parB l.length (fun k => (l[k]?.map f).getD false) := by
  induction l using List.reverseRecOn with
  | nil => simp [parB]
  | append_singleton l x ih =>
    rw [List.filter_append, List.length_append, odd_add, ih, List.length_append, List.length_singleton, parB]
    congr 1
    · exact parB_congr fun i hi => by rw [List.getElem?_append_left hi]
    · rw [List.getElem?_append_right (Nat.le_refl _)]
      by_cases h : f x = true <;> simp [h]

theorem inside_par {ps : List (V ℚ)} {v : V ℚ} {b : Bool} (h : Inside ps v b) :
    b = parB ps.length (fun i => tt (∃ p q, Side ps i p q ∧ OnRay v p q)) := by
  obtain ⟨hit, hn, hm, rfl⟩ := h
  refine odd_list hn fun i => ?_
  rw [hm, tt_iff]
  constructor
  · rintro ⟨p, q, h, r⟩
    exact ⟨(List.getElem?_eq_some_iff.1 h.1).1, p, q, h, r⟩
  · exact fun h => h.2

theorem inside_unique {ps : List (V ℚ)} {v : V ℚ} {b c : Bool} (h : Inside ps v b) (h' : Inside ps v c) : b = c := by
  rw [inside_par h, inside_par h']

theorem inside_exists (ps : List (V ℚ)) (v : V ℚ) : ∃ b, Inside ps v b := by
  refine ⟨_, (List.range ps.length).filter fun i => tt (∃ p q, Side ps i p q ∧ OnRay v p q), List.nodup_range.filter _, fun i => ?_, rfl⟩
  rw [List.mem_filter, List.mem_range, tt_iff]
  constructor
  · exact fun h => h.2
  · rintro ⟨p, q, h, r⟩
    exact ⟨(List.getElem?_eq_some_iff.1 h.1).1, p, q, h, r⟩

/-- A side changes whether a point is inside as often as it crosses the polygon. -/
theorem inside_change {qs : List (V ℚ)} {p q : V ℚ} (h : ∀ j r s, Side qs j r s → NoTouch p q r s) {bp bq : Bool} (hp : Inside qs p bp)
    (hq : Inside qs q bq) : (bp != bq) = parB qs.length (fun j => tt (∃ r s, Side qs j r s ∧ Touch p q r s)) := by
  rw [inside_par hp, inside_par hq, ← parB_xor]
  by_cases h0 : 0 < qs.length
  swap
  · rw [show qs.length = 0 by omega]
    rfl
  let G : Nat → Bool := fun j => tt (∃ u, qs[j]? = some u ∧ Region p q u)
  have key : parB qs.length (fun i => (tt (∃ r s, Side qs i r s ∧ OnRay p r s) != tt (∃ r s, Side qs i r s ∧ OnRay q r s)) !=
      tt (∃ r s, Side qs i r s ∧ Touch p q r s)) = parB qs.length (fun i => G (if i = 0 then qs.length - 1 else i - 1) != G i) := by
    refine parB_congr fun i hi => ?_
    have hi' : (if i = 0 then qs.length - 1 else i - 1) < qs.length := by split <;> omega
    have hs : Side qs i qs[if i = 0 then qs.length - 1 else i - 1] qs[i] := ⟨List.getElem?_eq_getElem hi, List.getElem?_eq_getElem hi'⟩
    have e : ∀ (C : V ℚ → V ℚ → Prop), (∃ r s, Side qs i r s ∧ C r s) ↔ C qs[if i = 0 then qs.length - 1 else i - 1] qs[i] := by
      intro C
      constructor
      · rintro ⟨r, s, h1, h2⟩
        obtain ⟨rfl, rfl⟩ := side_unique hs h1
        exact h2
      · exact fun h => ⟨_, _, hs, h⟩
    have g : ∀ k (hk : k < qs.length), G k = tt (Region p q qs[k]) := fun k hk => tt_congr (by
      rw [List.getElem?_eq_getElem hk]
      simp)
    rw [tt_congr (e (OnRay p)), tt_congr (e (OnRay q)), tt_congr (e (Touch p q)), g _ hi', g _ hi]
    exact local_all (h i _ _ hs)
  rw [parB_xor, parB_xor (fun i => G (if i = 0 then qs.length - 1 else i - 1)) G, parB_cycle G h0] at key
  revert key
  generalize parB qs.length (fun i => tt (∃ r s, Side qs i r s ∧ Touch p q r s)) = c
  generalize parB qs.length G = d
  intro key
  have : parB qs.length (fun i => tt (∃ r s, Side qs i r s ∧ OnRay p r s) != tt (∃ r s, Side qs i r s ∧ OnRay q r s)) = c := by
    generalize parB qs.length (fun i => tt (∃ r s, Side qs i r s ∧ OnRay p r s) != tt (∃ r s, Side qs i r s ∧ OnRay q r s)) = e at key
    revert key
    cases c <;> cases d <;> cases e <;> simp
  exact this

/-- The point of a side. -/
def along (p q : V ℚ) (t : ℚ) : V ℚ := ⟨p.x + t * (q.x - p.x), p.y + t * (q.y - p.y)⟩

theorem common_part {p q r s : V ℚ} {t x y : ℚ} (ht : 0 < t) (ht1 : t ≤ 1) :
    Common p (along p q t) r s x y ↔ 0 ≤ x ∧ x ≤ 1 ∧ Common p q r s (t * x) y := by
  unfold along
  constructor
  · intro h
    have x0 := h.x0
    have x1 := h.x1
    refine ⟨h.x0, h.x1, mul_nonneg ht.le h.x0, by nlinarith, h.y0, h.y1, ?_, ?_⟩
    · have := h.ex
      simp only at this
      linarith
    · have := h.ey
      simp only at this
      linarith
  · rintro ⟨h0, h1, h⟩
    refine ⟨h0, h1, h.y0, h.y1, ?_, ?_⟩
    · have := h.ex
      simp only
      linarith
    · have := h.ey
      simp only
      linarith

/-- From the begin of a side to a point of it. -/
theorem inside_along {qs : List (V ℚ)} {p q : V ℚ} (h : ∀ j r s, Side qs j r s → NoTouch p q r s) {t : ℚ} (h0 : 0 < t) (h1 : t ≤ 1)
    (hv : ∀ j r s y, Side qs j r s → ¬ Common p q r s t y) {bp bv : Bool} (hp : Inside qs p bp) (hv' : Inside qs (along p q t) bv) :
    (bp != bv) = parB qs.length (fun j => tt (∃ r s x y, Side qs j r s ∧ Common p q r s x y ∧ x < t)) := by
  rw [inside_change (p := p) (q := along p q t) ?_ hp hv']
  · refine parB_congr fun j _ => tt_congr ?_
    constructor
    · rintro ⟨r, s, hs, x, y, hc⟩
      obtain ⟨x0, x1, hc'⟩ := (common_part h0 h1).1 hc
      refine ⟨r, s, t * x, y, hs, hc', ?_⟩
      rcases lt_or_eq_of_le x1 with hx | hx
      · nlinarith
      · rw [hx, mul_one] at hc'
        exact absurd hc' (hv j r s y hs)
    · rintro ⟨r, s, x, y, hs, hc, hx⟩
      refine ⟨r, s, hs, x / t, y, (common_part h0 h1).2 ⟨div_nonneg hc.x0 h0.le, by rw [div_le_one h0]; exact hx.le, ?_⟩⟩
      rw [mul_div_cancel₀ _ h0.ne']
      exact hc
  · intro j r s hs x y hc
    obtain ⟨x0, x1, hc'⟩ := (common_part h0 h1).1 hc
    obtain ⟨g1, g2, g3, g4, g5⟩ := h j r s hs _ _ hc'
    refine ⟨?_, by_contra fun hx => ?_, lt_of_le_of_ne x1 fun hx => ?_, g4, g5⟩
    · have : turn p (along p q t) r s = t * turn p q r s := by
        unfold turn along
        ring
      rw [this]
      exact mul_ne_zero h0.ne' g1
    · have : x = 0 := le_antisymm (not_lt.1 hx) x0
      rw [this, mul_zero] at g2
      exact lt_irrefl _ g2
    · rw [hx, mul_one] at hc'
      exact hv j r s y hs hc'

/-- The crossings of a polygon with another one: the number of the side, of the side of the other polygon, and how far it is along the
side. -/
structure Crossings (ps qs : List (V ℚ)) (ms : List (Nat × Nat × ℚ)) : Prop where
  mem : ∀ i j x, (i, j, x) ∈ ms ↔ ∃ p q r s y, Side ps i p q ∧ Side qs j r s ∧ Common p q r s x y
  nodup : (ms.map fun m => (m.1, m.2.1)).Nodup
  noTouch : ∀ i j p q r s, Side ps i p q → Side qs j r s → NoTouch p q r s

variable {ps qs : List (V ℚ)} {ms : List (Nat × Nat × ℚ)}

/-- Whether the number of some crossings is odd. -/
def odd (ms : List (Nat × Nat × ℚ)) (f : Nat × Nat × ℚ → Bool) : Bool := decide ((ms.filter f).length % 2 = 1)

theorem odd_congr {f g : Nat × Nat × ℚ → Bool} (h : ∀ m ∈ ms, f m = g m) : odd ms f = odd ms g := by
  unfold odd
  rw [List.filter_congr h]

theorem odd_or {f g : Nat × Nat × ℚ → Bool} (h : ∀ m ∈ ms, f m = true → g m = false) : odd ms (fun m => f m || g m) = (odd ms f != odd ms g) := by
  unfold odd
  rw [← odd_add]
  congr 3
  induction ms with
  | nil => rfl
  | cons m l ih =>
    have := ih fun m hm => h m (List.mem_cons_of_mem _ hm)
    by_cases h1 : f m = true
    · have h2 := h m List.mem_cons_self h1
      simp [h1, h2, this]
      omega
    · by_cases h2 : g m = true
      · simp [h1, h2, this]
        omega
      · simp [h1, h2, this]

theorem odd_side (H : Crossings ps qs ms) {i : Nat} {p q : V ℚ} (hs : Side ps i p q) (t : ℚ) :
    parB qs.length (fun j => tt (∃ r s x y, Side qs j r s ∧ Common p q r s x y ∧ x < t)) = odd ms (fun m => decide (m.1 = i ∧ m.2.2 < t)) := by
  unfold odd
  rw [← List.length_map (f := fun m : Nat × Nat × ℚ => m.2.1)]
  symm
  refine odd_list ?_ fun j => ?_
  · have h := (List.Nodup.sublist (List.Sublist.map _ (List.filter_sublist (p := fun m : Nat × Nat × ℚ => decide (m.1 = i ∧ m.2.2 < t)) (l := ms))) H.nodup)
    unfold List.Nodup at h ⊢
    rw [List.pairwise_map] at h ⊢
    refine h.imp_of_mem fun {a b} ha hb hab e => hab ?_
    have h1 := (List.mem_filter.1 ha).2
    have h2 := (List.mem_filter.1 hb).2
    simp only [decide_eq_true_eq] at h1 h2
    rw [h1.1, h2.1, e]
  · rw [tt_iff]
    simp only [List.mem_map, List.mem_filter, decide_eq_true_eq, Prod.exists]
    constructor
    · rintro ⟨i', j', x, ⟨hm, rfl, hx⟩, rfl⟩
      obtain ⟨p', q', r, s, y, h1, h2, h3⟩ := (H.mem _ _ _).1 hm
      obtain ⟨rfl, rfl⟩ := side_unique hs h1
      exact ⟨(List.getElem?_eq_some_iff.1 h2.1).1, r, s, x, y, h2, h3, hx⟩
    · rintro ⟨-, r, s, x, y, h1, h2, h3⟩
      exact ⟨i, j, x, ⟨(H.mem _ _ _).2 ⟨p, q, r, s, y, hs, h1, h2⟩, rfl, h3⟩, rfl⟩

/-- From one corner to the next one. -/
theorem inside_next (H : Crossings ps qs ms) {i : Nat} {p q : V ℚ} (hs : Side ps i p q) {bp bq : Bool} (hp : Inside qs p bp) (hq : Inside qs q bq) :
    (bp != bq) = odd ms (fun m => decide (m.1 = i)) := by
  have e : along p q 1 = q := by
    unfold along
    cases q
    simp
  rw [inside_along (p := p) (q := q) (t := 1) (fun j r s h => H.noTouch i j p q r s hs h) one_pos le_rfl ?_ hp (by rw [e]; exact hq),
    odd_side H hs]
  · refine odd_congr fun m hm => ?_
    obtain ⟨i', j, x⟩ := m
    rw [decide_eq_decide]
    constructor
    · exact fun h => h.1
    · intro h
      refine ⟨h, ?_⟩
      obtain ⟨p', q', r, s, y, h1, h2, h3⟩ := (H.mem _ _ _).1 hm
      exact (H.noTouch _ _ _ _ _ _ h1 h2 _ _ h3).2.2.1
  · intro j r s y h hc
    exact lt_irrefl _ (H.noTouch _ _ _ _ _ _ hs h _ _ hc).2.2.1

/-- From corner 0 to another one. -/
theorem inside_corner (H : Crossings ps qs ms) {p0 : V ℚ} (h0 : ps[0]? = some p0) {b0 : Bool} (hb0 : Inside qs p0 b0) :
    ∀ {i : Nat} {p : V ℚ} {b : Bool}, ps[i]? = some p → Inside qs p b → b = (b0 != odd ms (fun m => decide (1 ≤ m.1 ∧ m.1 < i + 1)))
  | 0, p, b, hp, hb => by
    rw [h0] at hp
    cases hp
    rw [inside_unique hb hb0]
    have : odd ms (fun m => decide (1 ≤ m.1 ∧ m.1 < 0 + 1)) = false := by
      unfold odd
      rw [List.filter_eq_nil_iff.2]
      · rfl
      · intro m _
        simp
        omega
    rw [this]
    simp
  | i + 1, p, b, hp, hb => by
    have hi := (List.getElem?_eq_some_iff.1 hp).1
    obtain ⟨c, hc⟩ := inside_exists qs (ps[i]'(by omega))
    have ih := inside_corner H h0 hb0 (List.getElem?_eq_getElem (show i < ps.length by omega)) hc
    have hs : Side ps (i + 1) (ps[i]'(by omega)) p := ⟨hp, by
      rw [if_neg (by omega), Nat.add_sub_cancel]
      exact List.getElem?_eq_getElem _⟩
    have h1 := inside_next H hs hc hb
    have h2 : odd ms (fun m => decide (1 ≤ m.1 ∧ m.1 < i + 1 + 1)) =
        (odd ms (fun m => decide (1 ≤ m.1 ∧ m.1 < i + 1)) != odd ms (fun m => decide (m.1 = i + 1))) := by
      rw [← odd_or]
      · refine odd_congr fun m _ => ?_
        rw [Bool.eq_iff_iff]
        simp only [decide_eq_true_eq, Bool.or_eq_true]
        omega
      · intro m _ h
        simp only [decide_eq_true_eq] at h
        rw [decide_eq_false_iff_not]
        omega
    rw [h2, ← h1, ih]
    generalize odd ms (fun m => decide (1 ≤ m.1 ∧ m.1 < i + 1)) = d
    cases b0 <;> cases b <;> cases d <;> rfl

/-- The number of crossings is even. -/
theorem crossings_even (H : Crossings ps qs ms) (hp : 0 < ps.length) : ms.length % 2 = 0 := by
  obtain ⟨b0, hb0⟩ := inside_exists qs ps[0]
  obtain ⟨b, hb⟩ := inside_exists qs (ps[ps.length - 1]'(by omega))
  have h1 := inside_corner H (List.getElem?_eq_getElem hp) hb0 (List.getElem?_eq_getElem (show ps.length - 1 < ps.length by omega)) hb
  have h2 := inside_next H (i := 0) (p := ps[ps.length - 1]'(by omega)) (q := ps[0]) ⟨List.getElem?_eq_getElem hp, by
    rw [if_pos rfl]
    exact List.getElem?_eq_getElem _⟩ hb hb0
  have h3 : odd ms (fun _ => true) = (odd ms (fun m => decide (1 ≤ m.1 ∧ m.1 < ps.length - 1 + 1)) != odd ms (fun m => decide (m.1 = 0))) := by
    rw [← odd_or]
    · refine odd_congr fun m hm => ?_
      obtain ⟨i, j, x⟩ := m
      obtain ⟨p, q, r, s, y, g, -⟩ := (H.mem _ _ _).1 hm
      have := (List.getElem?_eq_some_iff.1 g.1).1
      symm
      rw [Bool.or_eq_true, decide_eq_true_eq, decide_eq_true_eq]
      simp only
      omega
    · intro m _ h
      simp only [decide_eq_true_eq] at h
      rw [decide_eq_false_iff_not]
      omega
  have h4 : odd ms (fun _ => true) = false := by
    rw [h3, ← h2, h1]
    generalize odd ms (fun m => decide (1 ≤ m.1 ∧ m.1 < ps.length - 1 + 1)) = d
    cases b0 <;> cases d <;> rfl
  unfold odd at h4
  rw [List.filter_eq_self.2 (by simp)] at h4
  simpa using h4

/-- A point of a side. -/
theorem inside_point (H : Crossings ps qs ms) {p0 : V ℚ} (h0 : ps[0]? = some p0) {b0 : Bool} (hb0 : Inside qs p0 b0) {i : Nat} (hi : 0 < i)
    {p q : V ℚ} (hp : ps[i - 1]? = some p) (hs : Side ps (if i = ps.length then 0 else i) p q) {t : ℚ} (ht : 0 < t) (ht1 : t ≤ 1)
    (hv : ∀ j, ((if i = ps.length then 0 else i), j, t) ∉ ms) :
    Inside qs (along p q t) (b0 != odd ms (fun m => decide (1 ≤ m.1 ∧ m.1 < i ∨ m.1 = (if i = ps.length then 0 else i) ∧ m.2.2 < t))) := by
  obtain ⟨b, hb⟩ := inside_exists qs (along p q t)
  obtain ⟨c, hc⟩ := inside_exists qs p
  have h1 := inside_corner H h0 hb0 hp hc
  rw [show i - 1 + 1 = i by omega] at h1
  have h2 := inside_along (p := p) (q := q) (t := t) (fun j r s h => H.noTouch _ j p q r s hs h) ht ht1
    (fun j r s y h hcm => hv j ((H.mem _ _ _).2 ⟨p, q, r, s, y, hs, h, hcm⟩)) hc hb
  rw [odd_side H hs] at h2
  have h3 : odd ms (fun m => decide (1 ≤ m.1 ∧ m.1 < i ∨ m.1 = (if i = ps.length then 0 else i) ∧ m.2.2 < t)) =
      (odd ms (fun m => decide (1 ≤ m.1 ∧ m.1 < i)) != odd ms (fun m => decide (m.1 = (if i = ps.length then 0 else i) ∧ m.2.2 < t))) := by
    rw [← odd_or]
    · refine odd_congr fun m _ => ?_
      rw [Bool.eq_iff_iff]
      simp only [decide_eq_true_eq, Bool.or_eq_true]
    · intro m _ h
      simp only [decide_eq_true_eq] at h
      rw [decide_eq_false_iff_not]
      rintro ⟨e, -⟩
      split at e <;> omega
  have : (b0 != odd ms (fun m => decide (1 ≤ m.1 ∧ m.1 < i ∨ m.1 = (if i = ps.length then 0 else i) ∧ m.2.2 < t))) = b := by
    rw [h3, ← h2, h1]
    generalize odd ms (fun m => decide (1 ≤ m.1 ∧ m.1 < i)) = d
    cases b0 <;> cases d <;> cases b <;> rfl
  rw [this]
  exact hb

end Tm.Poly
