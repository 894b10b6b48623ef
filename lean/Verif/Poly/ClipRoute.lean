import Verif.Poly.ClipMark
import Verif.Poly.Cuts

/-! # The parts of a polygon between an entry and the next exit -/

namespace Tm.Poly
open Spec

/-- An entry, the corners after it, the next exit, and the corners after it. -/
structure Pass where
  a : Nat
  ins : List Nat
  b : Nat
  outs : List Nat

/-- The vertices of a pass. -/
def Pass.flat (p : Pass) : List Nat := p.a :: p.ins ++ p.b :: p.outs

/-- A pass is made of crossings and corners in the right states. -/
structure Pass.Good (n : Nat) (st : Nat → Bool) (p : Pass) : Prop where
  a : n ≤ p.a
  b : n ≤ p.b
  ins : ∀ x ∈ p.ins, x < n
  outs : ∀ x ∈ p.outs, x < n
  sta : st p.a = true
  stb : st p.b = false
  stins : ∀ x ∈ p.ins, st x = true
  stouts : ∀ x ∈ p.outs, st x = false

/-- The state changes at crossings. -/
def Alt (n : Nat) (st : Nat → Bool) : Bool → List Nat → Prop
  | _, [] => True
  | s, x :: l => st x = (s != decide (n ≤ x)) ∧ Alt n st (st x) l

variable {n : Nat} {st : Nat → Bool}

theorem alt_append : ∀ (s : Bool) (l r : List Nat), Alt n st s (l ++ r) ↔ Alt n st s l ∧ Alt n st (s != oddCrossings n l) r
  | s, [], r => by simp [Alt, oddCrossings]
  | s, x :: l, r => by
    rw [List.cons_append, Alt, Alt, alt_append, odd_cons]
    constructor
    · rintro ⟨h1, h2, h3⟩
      refine ⟨⟨h1, h2⟩, ?_⟩
      rw [h1] at h3
      convert h3 using 1
      cases s <;> cases oddCrossings n l <;> cases decide (n ≤ x) <;> rfl
    · rintro ⟨⟨h1, h2⟩, h3⟩
      refine ⟨h1, h2, ?_⟩
      rw [h1]
      convert h3 using 1
      cases s <;> cases oddCrossings n l <;> cases decide (n ≤ x) <;> rfl

theorem parse : ∀ L : List Nat,
    (Alt n st false L → oddCrossings n L = false →
      ∃ (q : List Nat) (ps : List Pass), L = q ++ ps.flatMap Pass.flat ∧ (∀ x ∈ q, x < n ∧ st x = false) ∧ ∀ p ∈ ps, p.Good n st) ∧
    (Alt n st true L → oddCrossings n L = true →
      ∃ (q : List Nat) (b : Nat) (outs : List Nat) (ps : List Pass), L = q ++ b :: outs ++ ps.flatMap Pass.flat ∧
        (∀ x ∈ q, x < n ∧ st x = true) ∧ n ≤ b ∧ st b = false ∧ (∀ x ∈ outs, x < n ∧ st x = false) ∧ ∀ p ∈ ps, p.Good n st)
  | [] => ⟨fun _ _ => ⟨[], [], rfl, by simp, by simp⟩, fun _ h => by cases h⟩
  | x :: l => by
    obtain ⟨ih1, ih2⟩ := parse l
    constructor
    · rintro ⟨h1, h2⟩ h3
      rw [odd_cons] at h3
      by_cases hx : n ≤ x
      · rw [decide_eq_true hx] at h1 h3
        simp only [Bool.false_bne, Bool.bne_true, Bool.not_eq_false'] at h1 h3
        rw [h1] at h2
        obtain ⟨q, b, outs, ps, e, hq, hb, sb, ho, hg⟩ := ih2 h2 h3
        refine ⟨[], ⟨x, q, b, outs⟩ :: ps, ?_, by simp, ?_⟩
        · rw [e]
          simp [Pass.flat]
        · intro p hp
          rcases List.mem_cons.1 hp with rfl | hp
          · exact ⟨hx, hb, fun y hy => (hq y hy).1, fun y hy => (ho y hy).1, h1, sb, fun y hy => (hq y hy).2, fun y hy => (ho y hy).2⟩
          · exact hg p hp
      · rw [decide_eq_false hx] at h1 h3
        simp only [Bool.false_bne, Bool.bne_false] at h1 h3
        rw [h1] at h2
        obtain ⟨q, ps, e, hq, hg⟩ := ih1 h2 h3
        refine ⟨x :: q, ps, by rw [e]; rfl, ?_, hg⟩
        intro y hy
        rcases List.mem_cons.1 hy with rfl | hy
        · exact ⟨by omega, h1⟩
        · exact hq y hy
    · rintro ⟨h1, h2⟩ h3
      rw [odd_cons] at h3
      by_cases hx : n ≤ x
      · rw [decide_eq_true hx] at h1 h3
        simp only [bne_self_eq_false, Bool.bne_true, Bool.not_eq_true'] at h1 h3
        rw [h1] at h2
        obtain ⟨q, ps, e, hq, hg⟩ := ih1 h2 h3
        exact ⟨[], x, q, ps, by rw [e]; rfl, by simp, hx, h1, hq, hg⟩
      · rw [decide_eq_false hx] at h1 h3
        simp only [Bool.bne_false] at h1 h3
        rw [h1] at h2
        obtain ⟨q, b, outs, ps, e, hq, hb, sb, ho, hg⟩ := ih2 h2 h3
        refine ⟨x :: q, b, outs, ps, by rw [e]; rfl, ?_, hb, sb, ho, hg⟩
        intro y hy
        rcases List.mem_cons.1 hy with rfl | hy
        · exact ⟨by omega, h1⟩
        · exact hq y hy

theorem flat_snoc {ps : List Pass} (hps : ps ≠ []) {q : List Nat} (hq : ∀ x ∈ q, x < n ∧ st x = false) (hg : ∀ p ∈ ps, p.Good n st) :
    ∃ ps' : List Pass, ps'.flatMap Pass.flat = ps.flatMap Pass.flat ++ q ∧ ∀ p ∈ ps', p.Good n st := by
  obtain ⟨ps0, p, rfl⟩ := List.eq_nil_or_concat ps |>.resolve_left hps
  rw [List.concat_eq_append] at *
  refine ⟨ps0 ++ [{ p with outs := p.outs ++ q }], ?_, ?_⟩
  · simp [List.flatMap_append, Pass.flat]
  · intro p' hp'
    rcases List.mem_append.1 hp' with h | h
    · exact hg p' (List.mem_append_left _ h)
    · rw [List.mem_singleton] at h
      subst h
      have g := hg p (by simp)
      refine ⟨g.a, g.b, g.ins, ?_, g.sta, g.stb, g.stins, ?_⟩
      · intro x hx
        rcases List.mem_append.1 hx with h | h
        · exact g.outs x h
        · exact (hq x h).1
      · intro x hx
        rcases List.mem_append.1 hx with h | h
        · exact g.stouts x h
        · exact (hq x h).2

theorem first_crossing : ∀ L : List Nat, (∃ x ∈ L, n ≤ x) → ∃ q b rest, L = q ++ b :: rest ∧ (∀ x ∈ q, x < n) ∧ n ≤ b
  | [], h => by simp at h
  | x :: l, h => by
    by_cases hx : n ≤ x
    · exact ⟨[], x, l, rfl, by simp, hx⟩
    · obtain ⟨y, hy, hny⟩ := h
      rcases List.mem_cons.1 hy with rfl | hy
      · exact absurd hny hx
      · obtain ⟨q, b, rest, e, hq, hb⟩ := first_crossing l ⟨y, hy, hny⟩
        refine ⟨x :: q, b, rest, by rw [e]; rfl, ?_, hb⟩
        intro z hz
        rcases List.mem_cons.1 hz with rfl | hz
        · omega
        · exact hq z hz

theorem odd_corners {q : List Nat} (h : ∀ x ∈ q, x < n) : oddCrossings n q = false := by
  unfold oddCrossings
  rw [List.filter_eq_nil_iff.2 fun x hx => by simpa using h x hx]
  rfl

/-- A polygon with an even number of crossings, and at least one, is made of passes. -/
theorem decompose {s : Bool} {ring : List Nat} (ha : Alt n st s ring) (he : oddCrossings n ring = false) (hc : ∃ x ∈ ring, n ≤ x) :
    ∃ ps : List Pass, ring ~r ps.flatMap Pass.flat ∧ ∀ p ∈ ps, p.Good n st := by
  -- the case in which the first crossing is an entry
  have key : ∀ L : List Nat, Alt n st false L → oddCrossings n L = false → (∃ x ∈ L, n ≤ x) →
      ∃ ps : List Pass, L ~r ps.flatMap Pass.flat ∧ ∀ p ∈ ps, p.Good n st := by
    intro L h1 h2 h3
    obtain ⟨q, ps, e, hq, hg⟩ := (parse L).1 h1 h2
    have hne : ps ≠ [] := by
      rintro rfl
      obtain ⟨x, hx, hn⟩ := h3
      rw [e] at hx
      simp only [List.flatMap_nil, List.append_nil] at hx
      have := (hq x hx).1
      omega
    obtain ⟨ps', e', hg'⟩ := flat_snoc hne hq hg
    refine ⟨ps', ?_, hg'⟩
    rw [e', e]
    exact List.isRotated_append
  cases s with
  | false => exact key ring ha he hc
  | true =>
    obtain ⟨q, b, rest, e, hq, hb⟩ := first_crossing ring hc
    have hoq := odd_corners hq
    rw [e, alt_append, hoq, Bool.bne_false, Alt, decide_eq_true hb, bne_self_eq_false] at ha
    obtain ⟨a1, a2, a3⟩ := ha
    rw [a2] at a3
    rw [e, odd_append, odd_cons, hoq, decide_eq_true hb] at he
    have horest : oddCrossings n rest = true := by simpa using he
    obtain ⟨ps, hr, hg⟩ := key (rest ++ (q ++ [b])) (by
        rw [alt_append, alt_append, horest, hoq]
        refine ⟨a3, a1, ?_⟩
        simp [Alt, a2, hb])
      (by rw [odd_append, odd_append, horest, hoq, odd_cons, decide_eq_true hb]; rfl)
      ⟨b, by simp, hb⟩
    refine ⟨ps, ?_, hg⟩
    rw [e]
    refine List.IsRotated.trans ?_ hr
    rw [show q ++ b :: rest = (q ++ [b]) ++ rest by simp]
    exact List.isRotated_append

/-! ## Sides of a ring -/

/-- The consecutive pairs of a list. -/
def edges {α : Type} : List α → List (α × α)
  | x :: y :: l => (x, y) :: edges (y :: l)
  | _ => []

theorem chain_edges {α : Type} {R : α → α → Prop} : ∀ l : List α, l.IsChain R ↔ ∀ e ∈ edges l, R e.1 e.2
  | [] => by simp [edges]
  | [x] => by simp [edges]
  | x :: y :: l => by
    rw [List.isChain_cons_cons, chain_edges, edges]
    simp

theorem edges_append {α : Type} (x : α) : ∀ l r : List α, edges (l ++ x :: r) = edges (l ++ [x]) ++ edges (x :: r)
  | [], r => by simp [edges]
  | [y], r => by simp [edges]
  | y :: z :: l, r => by
    rw [List.cons_append, List.cons_append, edges, ← List.cons_append, edges_append x (z :: l) r]
    rfl

theorem edges_reverse {α : Type} : ∀ l : List α, edges l.reverse = ((edges l).map Prod.swap).reverse
  | [] => rfl
  | [x] => rfl
  | x :: y :: l => by
    rw [edges, List.reverse_cons, List.reverse_cons, List.append_assoc, List.singleton_append, edges_append y, ← List.reverse_cons,
      edges_reverse (y :: l), List.map_cons, List.reverse_cons]
    rfl

theorem edges_map {α β : Type} (f : α → β) : ∀ l : List α, edges (l.map f) = (edges l).map fun e => (f e.1, f e.2)
  | [] => rfl
  | [x] => rfl
  | x :: y :: l => by
    rw [List.map_cons, List.map_cons, edges, ← List.map_cons, edges_map f (y :: l)]
    rfl

theorem edges_zip {α : Type} : ∀ (x y : α) (l : List α), edges (x :: l ++ [y]) = (x :: l).zip (l ++ [y])
  | x, y, [] => rfl
  | x, y, z :: l => by
    rw [List.cons_append, List.cons_append, edges, ← List.cons_append, edges_zip z y l]
    rfl

/-- The sides of a polygon are the consecutive pairs on the way around. -/
theorem sides_edges {α : Type} (x : α) (l : List α) : sides (x :: l) = edges (x :: l ++ [x]) := by
  unfold sides
  rw [edges_zip, List.rotate_cons_succ, List.rotate_zero]

theorem sides_rotated {α : Type} {l r : List α} (h : l ~r r) : sides l ~r sides r := by
  obtain ⟨k, rfl⟩ := h
  exact ⟨k, (sides_rotate l k).symm⟩

theorem edges_flat {ps : List Pass} {p : Pass} (hp : p ∈ ps) {e : Nat × Nat} (he : e ∈ edges (p.a :: p.ins ++ [p.b])) :
    e ∈ edges (ps.flatMap Pass.flat) := by
  obtain ⟨l, r, rfl⟩ := List.append_of_mem hp
  rw [List.flatMap_append, List.flatMap_cons, Pass.flat]
  have h1 : (p.a :: p.ins ++ p.b :: p.outs) ++ r.flatMap Pass.flat = p.a :: (p.ins ++ p.b :: (p.outs ++ r.flatMap Pass.flat)) := by simp
  rw [h1, edges_append p.a]
  apply List.mem_append_right
  rw [← List.cons_append, edges_append p.b]
  exact List.mem_append_left _ he

theorem edges_sides {α : Type} {l : List α} {e : α × α} (h : e ∈ edges l) : e ∈ sides l := by
  cases l with
  | nil => cases h
  | cons x l =>
    rw [sides_edges]
    cases l using List.reverseRecOn with
    | nil => cases h
    | append_singleton l y =>
      rw [show x :: (l ++ [y]) ++ [x] = (x :: l) ++ y :: [x] by simp, edges_append y]
      exact List.mem_append_left _ h

theorem mem_edges {α : Type} {x y : α} : ∀ {l : List α}, (x, y) ∈ edges l ↔ ∃ pre post, l = pre ++ x :: y :: post
  | [] => by simp [edges]
  | [z] => by
    simp only [edges, List.not_mem_nil, false_iff]
    rintro ⟨pre, post, e⟩
    have := congrArg List.length e
    simp at this
    omega
  | z :: w :: l => by
    rw [edges, List.mem_cons, mem_edges]
    constructor
    · rintro (h | ⟨pre, post, e⟩)
      · cases h
        exact ⟨[], l, rfl⟩
      · exact ⟨z :: pre, post, by rw [e]; rfl⟩
    · rintro ⟨pre, post, e⟩
      cases pre with
      | nil =>
        cases e
        exact .inl rfl
      | cons u pre =>
        rw [List.cons_append] at e
        obtain ⟨-, e⟩ := List.cons.inj e
        exact .inr ⟨pre, post, e⟩

/-- The successor on the way around is unique. -/
theorem sides_unique {α : Type} {l : List α} (h : l.Nodup) {x y z : α} (h1 : (x, y) ∈ sides l) (h2 : (x, z) ∈ sides l) : y = z := by
  unfold sides at h1 h2
  obtain ⟨i, hi, e1⟩ := List.mem_iff_getElem.1 h1
  obtain ⟨j, hj, e2⟩ := List.mem_iff_getElem.1 h2
  rw [List.getElem_zip] at e1 e2
  obtain ⟨e1, e1'⟩ := Prod.mk.inj e1
  obtain ⟨e2, e2'⟩ := Prod.mk.inj e2
  have : i = j := (List.Nodup.getElem_inj_iff h).1 (e1.trans e2.symm)
  subst this
  exact e1'.symm.trans e2'

/-! ## A marked polygon -/

variable {F : Type} {A : Arith F}

/-- A polygon with its passes. -/
structure Way (d : List (CV F)) (n N : Nat) (ps : List Pass) : Prop where
  nodup : (ps.flatMap Pass.flat).Nodup
  mem : ∀ x, x ∈ ps.flatMap Pass.flat ↔ x < n + N
  a : ∀ p ∈ ps, n ≤ p.a
  b : ∀ p ∈ ps, n ≤ p.b
  ins : ∀ p ∈ ps, ∀ x ∈ p.ins, x < n
  outs : ∀ p ∈ ps, ∀ x ∈ p.outs, x < n
  chain : ∀ p ∈ ps, (p.a :: p.ins ++ [p.b]).IsChain (Link d)
  node : ∀ x < n + N, ∃ v, d[x]? = some v ∧ v.intersect = decide (n ≤ x)
  entry : ∀ p ∈ ps, ∀ v, d[p.a]? = some v → v.exit = false
  exit : ∀ p ∈ ps, ∀ v, d[p.b]? = some v → v.exit = true

/-- The state after a vertex. -/
def state (n : Nat) (inside : Bool) (ring : List Nat) (x : Nat) : Bool := inside != oddCrossings n (ring.takeWhile (fun y => decide (y ≠ x)) ++ [x])

theorem state_split {inside : Bool} {ring pre post : List Nat} {x : Nat} (hn : ring.Nodup) (e : ring = pre ++ x :: post) :
    state n inside ring x = (inside != oddCrossings n (pre ++ [x])) := by
  unfold state
  have : ring.takeWhile (fun y => decide (y ≠ x)) = pre := by
    rw [e, List.takeWhile_append_of_pos, List.takeWhile_cons, if_neg (by simp), List.append_nil]
    intro y hy
    rw [decide_eq_true_eq]
    rintro rfl
    rw [e] at hn
    exact (List.disjoint_of_nodup_append hn) hy List.mem_cons_self
  rw [this]

theorem state_alt {inside : Bool} {ring : List Nat} (hn : ring.Nodup) : ∀ pre L, ring = pre ++ L →
    Alt n (state n inside ring) (inside != oddCrossings n pre) L
  | pre, [], _ => trivial
  | pre, x :: L, e => by
    have hs := state_split (n := n) (inside := inside) hn e
    refine ⟨?_, ?_⟩
    · rw [hs, odd_append, odd_cons]
      cases inside <;> cases oddCrossings n pre <;> cases decide (n ≤ x) <;> rfl
    · rw [hs]
      exact state_alt hn (pre ++ [x]) L (by rw [e]; simp)

theorem way_of {m : Nat} {ps : List (V F)} {cs : List (Crossing F)} {vs vs' : Clip F} (hP : Prepared A m ps cs vs) {ring : List Nat}
    (T : Tour A vs.data ps.length cs ring) {inside : Bool} (M : Marked ps.length ring inside vs vs') (h0 : 0 < ps.length)
    (hodd : cs.length % 2 = 0) (hne : cs ≠ []) :
    ∃ passes, Way vs'.data ps.length cs.length passes ∧
      ∀ x y, ((x, y) ∈ sides ring ∧ state ps.length inside ring x = true) ↔ ∃ p ∈ passes, (x, y) ∈ edges (p.a :: p.ins ++ [p.b]) := by
  have hnd : ring.Nodup := T.all.nodup_iff.2 List.nodup_range
  have hmem : ∀ x, x ∈ ring ↔ x < ps.length + cs.length := fun x => by rw [T.all.mem_iff, List.mem_range]
  have hlen : (ring.filter fun x => decide (ps.length ≤ x)).length = cs.length := by
    rw [(T.all.filter _).length_eq, List.range_add, List.filter_append, List.filter_eq_nil_iff.2, List.nil_append, List.filter_eq_self.2]
    · simp
    · intro x hx
      obtain ⟨y, -, rfl⟩ := List.mem_map.1 hx
      simp
    · intro x hx
      have := List.mem_range.1 hx
      simp
      omega
  have halt : Alt ps.length (state ps.length inside ring) inside ring := by
    have := state_alt (n := ps.length) (inside := inside) hnd [] ring rfl
    simpa [oddCrossings] using this
  obtain ⟨passes, hrot, hg⟩ := decompose halt (by unfold oddCrossings; rw [hlen]; simp [hodd])
    ⟨ps.length, (hmem _).2 (by have := List.length_pos_iff.2 hne; omega), Nat.le_refl _⟩
  have hnd' : (passes.flatMap Pass.flat).Nodup := hrot.nodup_iff.1 hnd
  have hmem' : ∀ x, x ∈ passes.flatMap Pass.flat ↔ x < ps.length + cs.length := fun x => by rw [← hrot.mem_iff, hmem]
  -- the marks
  have hmark : ∀ x, x ∈ ring → ∃ v, vs.data[x]? = some v ∧ v.intersect = decide (ps.length ≤ x) ∧
      vs'.data[x]? = some { v with exit := decide (ps.length ≤ x) && !state ps.length inside ring x } := by
    intro x hx
    obtain ⟨pre, post, e⟩ := List.append_of_mem hx
    have hs := state_split (n := ps.length) (inside := inside) hnd e
    have hv : ∃ v, vs.data[x]? = some v ∧ v.intersect = decide (ps.length ≤ x) := by
      by_cases h : x < ps.length
      · obtain ⟨v, h1, -, h3, -⟩ := hP.corner x _ (List.getElem?_eq_getElem h)
        exact ⟨v, h1, by rw [h3, decide_eq_false (by omega)]⟩
      · have hx' := (hmem x).1 hx
        obtain ⟨v, h1, -, -, -, h3, -⟩ := hP.crossing (x - ps.length) _ (List.getElem?_eq_getElem (show x - ps.length < cs.length by omega))
        rw [show ps.length + (x - ps.length) = x by omega] at h1
        exact ⟨v, h1, by rw [h3, decide_eq_true (by omega)]⟩
    obtain ⟨v, hv, hi⟩ := hv
    refine ⟨v, hv, hi, ?_⟩
    have hm : (decide (ps.length ≤ x) && (inside != oddCrossings ps.length pre)) = (decide (ps.length ≤ x) && !state ps.length inside ring x) := ?_
    · rw [M.marks pre x post v e hv, hm]
    rw [hs, odd_append, odd_cons]
    by_cases h : ps.length ≤ x
    · rw [decide_eq_true h]
      cases inside <;> cases oddCrossings ps.length pre <;> rfl
    · rw [decide_eq_false h]
      rfl
  have hlink : ∀ x y, Link vs.data x y → x ∈ ring → y ∈ ring → Link vs'.data x y := by
    rintro x y ⟨⟨v, hv, e⟩, w, hw, e'⟩ hx hy
    obtain ⟨v1, h1, -, h2⟩ := hmark x hx
    obtain ⟨w1, h3, -, h4⟩ := hmark y hy
    rw [hv] at h1
    cases h1
    rw [hw] at h3
    cases h3
    exact ⟨⟨_, h2, e⟩, _, h4, e'⟩
  -- sides
  have hring : ∃ t, ring = 0 :: t := by
    have := T.closed.1
    cases ring with
    | nil => cases this
    | cons x t =>
      cases this
      exact ⟨t, rfl⟩
  have hclosed : ∀ e ∈ sides ring, Link vs.data e.1 e.2 := by
    obtain ⟨t, rfl⟩ := hring
    rw [sides_edges, ← chain_edges]
    exact T.closed.2
  have hsub : ∀ p ∈ passes, ∀ e ∈ edges (p.a :: p.ins ++ [p.b]), e ∈ sides ring := fun p hp e he =>
    ((sides_rotated hrot).mem_iff).2 (edges_sides (edges_flat hp he))
  have hin : ∀ p ∈ passes, ∀ x ∈ p.flat, x ∈ ring := fun p hp x hx => hrot.mem_iff.2 (List.mem_flatMap.2 ⟨p, hp, hx⟩)
  refine ⟨passes, ⟨hnd', hmem', fun p hp => (hg p hp).a, fun p hp => (hg p hp).b, fun p hp => (hg p hp).ins, fun p hp => (hg p hp).outs,
    fun p hp => ?_, fun x hx => ?_, fun p hp v hv => ?_, fun p hp v hv => ?_⟩, fun x y => ⟨?_, ?_⟩⟩
  · rw [chain_edges]
    rintro ⟨x, y⟩ he
    obtain ⟨pre, post, e⟩ := mem_edges.1 he
    have hsubset : ∀ z ∈ p.a :: p.ins ++ [p.b], z ∈ ring := fun z hz => hin p hp z (by
      unfold Pass.flat
      simp only [List.cons_append, List.mem_cons, List.mem_append, List.not_mem_nil, or_false] at hz ⊢
      tauto)
    exact hlink x y (hclosed _ (hsub p hp _ he)) (hsubset x (by rw [e]; simp)) (hsubset y (by rw [e]; simp))
  · obtain ⟨v, -, h2, h3⟩ := hmark x ((hmem x).2 hx)
    exact ⟨_, h3, h2⟩
  · obtain ⟨w, -, -, h3⟩ := hmark p.a (hin p hp _ (by simp [Pass.flat]))
    rw [hv] at h3
    cases h3
    simp [(hg p hp).sta]
  · obtain ⟨w, -, -, h3⟩ := hmark p.b (hin p hp _ (by simp [Pass.flat]))
    rw [hv] at h3
    cases h3
    simp [(hg p hp).stb, (hg p hp).b]
  · rintro ⟨h1, h2⟩
    have hx : x ∈ passes.flatMap Pass.flat := by
      rw [← hrot.mem_iff]
      exact (List.of_mem_zip h1).1
    obtain ⟨p, hp, hx⟩ := List.mem_flatMap.1 hx
    refine ⟨p, hp, ?_⟩
    have g := hg p hp
    have hx' : x ∈ p.a :: p.ins := by
      unfold Pass.flat at hx
      rcases List.mem_append.1 hx with h | h
      · exact h
      · exfalso
        rcases List.mem_cons.1 h with rfl | h
        · rw [g.stb] at h2
          cases h2
        · rw [g.stouts x h] at h2
          cases h2
    obtain ⟨pre, post, e⟩ := List.append_of_mem hx'
    -- the successor of `x`
    have hsucc : ∃ z, (x, z) ∈ edges (p.a :: p.ins ++ [p.b]) := by
      cases post with
      | nil => exact ⟨p.b, mem_edges.2 ⟨pre, [], by rw [e]; simp⟩⟩
      | cons z post => exact ⟨z, mem_edges.2 ⟨pre, post ++ [p.b], by rw [e]; simp⟩⟩
    obtain ⟨z, hz⟩ := hsucc
    rw [sides_unique hnd h1 (hsub p hp _ hz)]
    exact hz
  · rintro ⟨p, hp, he⟩
    refine ⟨hsub p hp _ he, ?_⟩
    have g := hg p hp
    obtain ⟨pre, post, e⟩ := mem_edges.1 he
    have hx : x ∈ p.a :: p.ins := by
      have h := congrArg List.dropLast e
      rw [List.dropLast_concat] at h
      rw [h, List.dropLast_append_of_ne_nil (by simp)]
      apply List.mem_append_right
      simp [List.dropLast]
    rcases List.mem_cons.1 hx with rfl | hx
    · exact g.sta
    · exact g.stins x hx

end Tm.Poly
