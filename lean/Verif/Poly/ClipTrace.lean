import Mathlib.Data.List.Perm.Subperm
import Verif.Poly.ClipWalk

/-! # Following two polygons in turn -/

namespace Tm.Poly
open Spec

variable {F : Type} {nn : Bool → Nat} {N : Nat} {D : Bool → List (CV F)} {P : Bool → List Pass} {pos : Pt → V F}

/-- Two marked polygons with the same crossings. -/
structure World (nn : Bool → Nat) (N : Nat) (D : Bool → List (CV F)) (P : Bool → List Pass) (pos : Pt → V F) : Prop where
  way : ∀ s, Way (D s) (nn s) N (P s)
  nb : ∀ s k, k < N → ∃ v, (D s)[nn s + k]? = some v ∧ v.neighbor.toNat = nn (!s) + k
  pos : ∀ s y, y < nn s + N → ∀ v, (D s)[y]? = some v → v.pos = pos (pt s (nn s) y)

/-- From crossing `k` to crossing `k'` on one of the polygons. -/
def Arc (nn : Bool → Nat) (P : Bool → List Pass) (s : Bool) (k : Nat) (l : List Nat) (k' : Nat) (back : Bool) : Prop :=
  Step (P s) (nn s + k) l (nn s + k') back

theorem arc_exists (W : World nn N D P pos) (s : Bool) {k : Nat} (h : k < N) : ∃ l k' back, Arc nn P s k l k' back := by
  obtain ⟨l, y, back, h⟩ := step_exists (W.way s) (Nat.le_add_right (nn s) k) (by omega)
  have := step_end (W.way s) h
  refine ⟨l, y - nn s, back, ?_⟩
  unfold Arc
  rw [show nn s + (y - nn s) = y by omega]
  exact h

theorem arc_end (W : World nn N D P pos) {s : Bool} {k k' : Nat} {l : List Nat} {back : Bool} (h : Arc nn P s k l k' back) : k' < N ∧ k ≠ k' := by
  have := step_end (W.way s) h
  omega

theorem arc_symm {s : Bool} {k k' : Nat} {l : List Nat} {back : Bool} (h : Arc nn P s k l k' back) : Arc nn P s k' l.reverse k (!back) :=
  step_symm h

theorem arc_unique (W : World nn N D P pos) {s : Bool} {k k' k'' : Nat} {l l' : List Nat} {back back' : Bool} (h : Arc nn P s k l k' back)
    (h' : Arc nn P s k l' k'' back') : l = l' ∧ k' = k'' ∧ back = back' := by
  obtain ⟨h1, h2, h3⟩ := step_unique (W.way s) h h'
  exact ⟨h1, by omega, h3⟩

/-- A vertex that exists. -/
def Valid (nn : Bool → Nat) (N : Nat) : Pt → Prop
  | .a i => i < nn false
  | .b j => j < nn true
  | .x k => k < N

theorem pt_corner {s : Bool} {y : Nat} (h : y < nn s) : pt s (nn s) y = if s = true then .b y else .a y := by
  unfold pt
  rw [if_pos h]

theorem pt_crossing (s : Bool) (k : Nat) : pt s (nn s) (nn s + k) = .x k := by
  unfold pt
  rw [if_neg (by omega), Nat.add_sub_cancel_left]

theorem pt_inj {s t : Bool} {y z : Nat} (hy : y < nn s) (hz : z < nn t) (h : pt s (nn s) y = pt t (nn t) z) : s = t ∧ y = z := by
  rw [pt_corner hy, pt_corner hz] at h
  cases s <;> cases t <;> simp at h <;> simp [h]

theorem pt_ne {s : Bool} {y k : Nat} (hy : y < nn s) : pt s (nn s) y ≠ .x k := by
  rw [pt_corner hy]
  cases s <;> simp

/-- Vertices that are all different and exist are not too many. -/
theorem valid_length {out : List Pt} (h : out.Nodup) (hv : ∀ p ∈ out, Valid nn N p) : out.length ≤ nn false + nn true + N := by
  have hsub : out ⊆ (List.range (nn false)).map Pt.a ++ (List.range (nn true)).map Pt.b ++ (List.range N).map Pt.x := by
    intro p hp
    have := hv p hp
    cases p with
    | a i => simpa [Valid] using this
    | b i => simpa [Valid] using this
    | x i => simpa [Valid] using this
  have := (List.subperm_of_subset h hsub).length_le
  simp only [List.length_append, List.length_map, List.length_range] at this
  exact this

/-- What was emitted before, for the crossings `S`. -/
structure Done (nn : Bool → Nat) (N : Nat) (P : Bool → List Pass) (S : Nat → Prop) (out : List Pt) : Prop where
  closed : ∀ s v l v' b, S v → Arc nn P s v l v' b → S v'
  crossing : ∀ k, .x k ∈ out ↔ S k
  corner : ∀ s z, z < nn s → pt s (nn s) z ∈ out → ∃ v l v' b, S v ∧ Arc nn P s v l v' b ∧ z ∈ l
  valid : ∀ p ∈ out, Valid nn N p
  nodup : out.Nodup

/-- The pairs of a list in both directions. -/
def Near {α : Type} (es : List (α × α)) (u v : α) : Prop := (u, v) ∈ es ∨ (v, u) ∈ es

theorem near_append {α : Type} (l r : List (α × α)) (u v : α) : Near (l ++ r) u v ↔ Near l u v ∨ Near r u v := by
  unfold Near
  simp only [List.mem_append]
  tauto

/-- The vertices of an arc. -/
def arcPts (nn : Bool → Nat) (s : Bool) (k : Nat) (l : List Nat) (k' : Nat) : List Pt := .x k :: l.map (pt s (nn s)) ++ [.x k']

theorem arcPts_reverse (s : Bool) (k : Nat) (l : List Nat) (k' : Nat) : arcPts nn s k' l.reverse k = (arcPts nn s k l k').reverse := by
  unfold arcPts
  simp

theorem near_reverse {α : Type} (l : List α) (u v : α) : Near (edges l.reverse) u v ↔ Near (edges l) u v := by
  unfold Near
  rw [edges_reverse]
  simp only [List.mem_reverse, List.mem_map, Prod.exists]
  constructor
  · rintro (⟨a, b, h, e⟩ | ⟨a, b, h, e⟩)
    · cases e
      exact .inr h
    · cases e
      exact .inl h
  · rintro (h | h)
    · exact .inr ⟨_, _, h, rfl⟩
    · exact .inl ⟨_, _, h, rfl⟩

/-- What was emitted of a polygon that began at crossing `k0` and has reached crossing `cur`: the arcs `U`, the crossings `xs`. -/
structure Core (nn : Bool → Nat) (N : Nat) (P : Bool → List Pass) (S : Nat → Prop) (out0 : List Pt) (U : Bool → Nat → Prop) (k0 : Nat)
    (xs : List Nat) (cur : Nat) (out : List Pt) : Prop where
  closed : ∀ s v l v' b, U s v → Arc nn P s v l v' b → U s v'
  crossing : ∀ k, .x k ∈ out ↔ k ∈ xs
  corner : ∀ s z, z < nn s → pt s (nn s) z ∈ out → ∃ v l v' b, U s v ∧ Arc nn P s v l v' b ∧ z ∈ l
  valid : ∀ p ∈ out, Valid nn N p
  nodup : (out0 ++ out).Nodup
  edge : ∀ u v, Near (edges (.x k0 :: out)) u v ↔ ∃ s w l w' b, U s w ∧ Arc nn P s w l w' b ∧ Near (edges (arcPts nn s w l w')) u v
  last : ∃ pre, .x k0 :: out = pre ++ [.x cur]

/-- Another arc. -/
theorem core_extend (W : World nn N D P pos) {S : Nat → Prop} {out0 : List Pt} (hD : Done nn N P S out0) {U : Bool → Nat → Prop} {k0 : Nat}
    {xs : List Nat} {cur : Nat} {out : List Pt} (hC : Core nn N P S out0 U k0 xs cur out) {side : Bool} (hU : ¬ U side cur) (hS : ¬ S cur)
    {l : List Nat} {k : Nat} {back : Bool} (ha : Arc nn P side cur l k back) (hk : k ∉ xs) :
    Core nn N P S out0 (fun s v => U s v ∨ (s = side ∧ (v = cur ∨ v = k))) k0 (xs ++ [k]) k (out ++ (l.map (pt side (nn side)) ++ [.x k])) := by
  have hl := step_corner (W.way side) ha
  have hkS : ¬ S k := fun h => hS (hD.closed _ _ _ _ _ h (arc_symm ha))
  obtain ⟨hkN, hkc⟩ := arc_end W ha
  refine ⟨?_, ?_, ?_, ?_, ?_, ?_, ?_⟩
  · rintro s v l' v' b (h | ⟨rfl, rfl | rfl⟩) ha'
    · exact .inl (hC.closed s v l' v' b h ha')
    · obtain ⟨-, rfl, -⟩ := arc_unique W ha ha'
      exact .inr ⟨rfl, .inr rfl⟩
    · obtain ⟨-, rfl, -⟩ := arc_unique W (arc_symm ha) ha'
      exact .inr ⟨rfl, .inl rfl⟩
  · intro j
    rw [List.mem_append, List.mem_append, hC.crossing, List.mem_append]
    constructor
    · rintro (h | h | h)
      · exact .inl h
      · obtain ⟨z, hz, e⟩ := List.mem_map.1 h
        exact absurd e (pt_ne (hl.1 z hz))
      · rw [List.mem_singleton] at h
        cases h
        exact .inr (by simp)
    · rintro (h | h)
      · exact .inl h
      · rw [List.mem_singleton] at h
        subst h
        exact .inr (.inr (by simp))
  · intro s z hz h
    rw [List.mem_append, List.mem_append] at h
    rcases h with h | h | h
    · obtain ⟨v, l', v', b, h1, h2⟩ := hC.corner s z hz h
      exact ⟨v, l', v', b, .inl h1, h2⟩
    · obtain ⟨y, hy, e⟩ := List.mem_map.1 h
      obtain ⟨rfl, rfl⟩ := pt_inj (hl.1 y hy) hz e
      exact ⟨cur, l, k, back, .inr ⟨rfl, .inl rfl⟩, ha, hy⟩
    · rw [List.mem_singleton] at h
      exact absurd h (pt_ne hz)
  · intro p hp
    rw [List.mem_append, List.mem_append] at hp
    rcases hp with h | h | h
    · exact hC.valid p h
    · obtain ⟨y, hy, rfl⟩ := List.mem_map.1 h
      have hy' := hl.1 y hy
      rw [pt_corner hy']
      cases side <;> exact hy'
    · rw [List.mem_singleton] at h
      subst h
      exact hkN
  · rw [← List.append_assoc, List.nodup_append']
    refine ⟨hC.nodup, ?_, ?_⟩
    · rw [List.nodup_append']
      refine ⟨?_, List.nodup_singleton _, ?_⟩
      · refine (List.nodup_map_iff_inj_on hl.2).2 fun y hy z hz e => (pt_inj (hl.1 y hy) (hl.1 z hz) e).2
      · intro p hp h
        rw [List.mem_singleton] at h
        subst h
        obtain ⟨y, hy, e⟩ := List.mem_map.1 hp
        exact pt_ne (hl.1 y hy) e
    · intro p hp h
      rw [List.mem_append] at hp h
      rcases h with h | h
      · obtain ⟨y, hy, rfl⟩ := List.mem_map.1 h
        have hy' := hl.1 y hy
        rcases hp with hp | hp
        · obtain ⟨v, l', v', b, h1, h2, h3⟩ := hD.corner side y hy' hp
          have := step_disjoint (W.way side) h2 ha h3 hy
          rcases this with e | e
          · have e : cur = v := by omega
            exact hS (e ▸ h1)
          · have e : cur = v' := by omega
            exact hS (e ▸ hD.closed _ _ _ _ _ h1 h2)
        · obtain ⟨v, l', v', b, h1, h2, h3⟩ := hC.corner side y hy' hp
          have := step_disjoint (W.way side) h2 ha h3 hy
          rcases this with e | e
          · have e : cur = v := by omega
            exact hU (e ▸ h1)
          · have e : cur = v' := by omega
            exact hU (e ▸ hC.closed _ _ _ _ _ h1 h2)
      · rw [List.mem_singleton] at h
        subst h
        rcases hp with hp | hp
        · exact hkS ((hD.crossing k).1 hp)
        · exact hk ((hC.crossing k).1 hp)
  · intro u v
    obtain ⟨pre, e⟩ := hC.last
    have e1 : edges (.x k0 :: (out ++ (l.map (pt side (nn side)) ++ [.x k]))) = edges (.x k0 :: out) ++ edges (arcPts nn side cur l k) := by
      rw [← List.cons_append, e, List.append_assoc, List.singleton_append, edges_append (Pt.x cur)]
      rfl
    rw [e1, near_append, hC.edge]
    constructor
    · rintro (⟨s, w, l', w', b, h1, h2⟩ | h)
      · exact ⟨s, w, l', w', b, .inl h1, h2⟩
      · exact ⟨side, cur, l, k, back, .inr ⟨rfl, .inl rfl⟩, ha, h⟩
    · rintro ⟨s, w, l', w', b, h1 | ⟨rfl, rfl | rfl⟩, h2, h3⟩
      · exact .inl ⟨s, w, l', w', b, h1, h2, h3⟩
      · obtain ⟨rfl, rfl, -⟩ := arc_unique W ha h2
        exact .inr h3
      · obtain ⟨rfl, rfl, -⟩ := arc_unique W (arc_symm ha) h2
        rw [arcPts_reverse, near_reverse] at h3
        exact .inr h3
  · exact ⟨.x k0 :: (out ++ l.map (pt side (nn side))), by simp⟩

/-- A finished polygon, with the crossings `K`. -/
structure Finished (nn : Bool → Nat) (N : Nat) (P : Bool → List Pass) (K : List Nat) (out : List Pt) : Prop where
  crossing : ∀ k, .x k ∈ out ↔ k ∈ K
  edge : ∀ u v, Near (sides out) u v ↔ ∃ s w l w' b, w ∈ K ∧ Arc nn P s w l w' b ∧ Near (edges (arcPts nn s w l w')) u v

theorem near_rotated {α : Type} {l r : List (α × α)} (h : l ~r r) (u v : α) : Near l u v ↔ Near r u v := by
  unfold Near
  rw [h.mem_iff, h.mem_iff]

/-- The arcs followed so far, and where the polygon is. -/
structure Hist (S : Nat → Prop) (N : Nat) (U : Bool → Nat → Prop) (k0 : Nat) (xs : List Nat) (cur : Nat) (side : Bool) : Prop where
  free : ¬ U side cur
  both : ∀ v ∈ xs, v ≠ cur → ∀ s, U s v
  only : ∀ s v, U s v → v ∈ xs ∨ (v = k0 ∧ s = false)
  state : (xs = [] ∧ cur = k0 ∧ side = false) ∨ (cur ∈ xs ∧ U false k0 ∧ U (!side) cur)
  notS : ¬ S cur
  notS0 : ¬ S k0
  notSx : ∀ v ∈ xs, ¬ S v
  begin' : k0 ∉ xs
  nodup : xs.Nodup
  lt : ∀ v ∈ xs, v < N
  lt0 : k0 < N
  ltc : cur < N

theorem hist_step (W : World nn N D P pos) {S : Nat → Prop} {out0 : List Pt} (hD : Done nn N P S out0) {U : Bool → Nat → Prop} {k0 : Nat}
    {xs : List Nat} {cur : Nat} {out : List Pt} (hC : Core nn N P S out0 U k0 xs cur out) {side : Bool} (hH : Hist S N U k0 xs cur side)
    {l : List Nat} {k : Nat} {back : Bool} (ha : Arc nn P side cur l k back) :
    k ∉ xs ∧ k < N ∧ ¬ S k ∧
    (k ≠ k0 → Hist S N (fun s v => U s v ∨ (s = side ∧ (v = cur ∨ v = k))) k0 (xs ++ [k]) k (!side)) ∧
    (k = k0 → side = true ∧ ∀ s v, (U s v ∨ (s = side ∧ (v = cur ∨ v = k))) ↔ v ∈ xs ++ [k]) := by
  obtain ⟨hkN, hkc⟩ := arc_end W ha
  have hkU : ¬ U side k := fun h => hH.free (hC.closed _ _ _ _ _ h (arc_symm ha))
  have hkS : ¬ S k := fun h => hH.notS (hD.closed _ _ _ _ _ h (arc_symm ha))
  have hkx : k ∉ xs := fun h => hkU (hH.both k h (Ne.symm hkc) side)
  refine ⟨hkx, hkN, hkS, fun hk0 => ?_, fun hk0 => ?_⟩
  · refine ⟨?_, ?_, ?_, ?_, hkS, hH.notS0, ?_, ?_, ?_, ?_, hH.lt0, hkN⟩
    · rintro (h | ⟨h, -⟩)
      · rcases hH.only _ _ h with h | ⟨h, -⟩
        · exact hkx h
        · exact hk0 h
      · cases side <;> cases h
    · intro v hv hvk s
      rcases List.mem_append.1 hv with hv | hv
      · by_cases e : v = cur
        · subst e
          by_cases es : s = side
          · exact .inr ⟨es, .inl rfl⟩
          · rcases hH.state with ⟨h, -⟩ | ⟨-, -, h⟩
            · rw [h] at hv
              cases hv
            · left
              rwa [show s = !side by cases s <;> cases side <;> simp_all]
        · exact .inl (hH.both v hv e s)
      · exact absurd (List.mem_singleton.1 hv) hvk
    · rintro s v (h | ⟨rfl, rfl | rfl⟩)
      · rcases hH.only s v h with h | h
        · exact .inl (List.mem_append_left _ h)
        · exact .inr h
      · rcases hH.state with ⟨-, h, h'⟩ | ⟨h, -⟩
        · exact .inr ⟨h, h'⟩
        · exact .inl (List.mem_append_left _ h)
      · exact .inl (by simp)
    · right
      refine ⟨by simp, ?_, .inr ⟨by simp, .inr rfl⟩⟩
      rcases hH.state with ⟨-, h, h'⟩ | ⟨-, h, -⟩
      · exact .inr ⟨h'.symm, .inl h.symm⟩
      · exact .inl h
    · intro v hv
      rcases List.mem_append.1 hv with hv | hv
      · exact hH.notSx v hv
      · rw [List.mem_singleton.1 hv]
        exact hkS
    · intro h
      rcases List.mem_append.1 h with h | h
      · exact hH.begin' h
      · exact hk0 (List.mem_singleton.1 h).symm
    · rw [List.nodup_append']
      exact ⟨hH.nodup, List.nodup_singleton _, fun v hv h => by rw [List.mem_singleton] at h; exact hkx (h ▸ hv)⟩
    · intro v hv
      rcases List.mem_append.1 hv with hv | hv
      · exact hH.lt v hv
      · rw [List.mem_singleton.1 hv]
        exact hkN
  · subst hk0
    have hstate : cur ∈ xs ∧ U false k ∧ U (!side) cur := by
      rcases hH.state with ⟨-, h, -⟩ | h
      · exact absurd h (fun e => hkc e)
      · exact h
    have hside : side = true := by
      cases side
      · exact absurd hstate.2.1 hkU
      · rfl
    subst hside
    refine ⟨rfl, fun s v => ⟨?_, ?_⟩⟩
    · rintro (h | ⟨rfl, rfl | rfl⟩)
      · rcases hH.only s v h with h | ⟨rfl, -⟩
        · exact List.mem_append_left _ h
        · simp
      · exact List.mem_append_left _ hstate.1
      · simp
    · intro hv
      rcases List.mem_append.1 hv with hv | hv
      · by_cases e : v = cur
        · subst e
          cases s
          · exact .inl hstate.2.2
          · exact .inr ⟨rfl, .inl rfl⟩
        · exact .inl (hH.both v hv e s)
      · rw [List.mem_singleton] at hv
        subst hv
        cases s
        · exact .inl hstate.2.1
        · exact .inr ⟨rfl, .inr rfl⟩

/-- A polygon that returned to its begin is finished. -/
theorem core_close {S : Nat → Prop} {out0 : List Pt} (hD : Done nn N P S out0) {U : Bool → Nat → Prop} {k0 : Nat} {K : List Nat} {out : List Pt}
    (hC : Core nn N P S out0 U k0 K k0 out) (hU : ∀ s v, U s v ↔ v ∈ K) (hne : out ≠ []) :
    Finished nn N P K out ∧ Done nn N P (fun k => S k ∨ k ∈ K) (out0 ++ out) := by
  constructor
  · refine ⟨hC.crossing, fun u v => ?_⟩
    have h1 := hC.edge u v
    simp only [hU] at h1
    rw [← h1]
    obtain ⟨pre, e⟩ := hC.last
    cases out using List.reverseRecOn with
    | nil => exact absurd rfl hne
    | append_singleton out y =>
      have ey : y = .x k0 := by
        have := congrArg List.getLast? e
        rw [← List.cons_append, List.getLast?_concat, List.getLast?_concat] at this
        exact Option.some.inj this
      subst ey
      have hr : (out ++ [Pt.x k0]) ~r (Pt.x k0 :: out) := by
        rw [← List.singleton_append (l := out)]
        exact List.isRotated_append
      rw [near_rotated (sides_rotated hr), sides_edges]
      rfl
  · refine ⟨?_, ?_, ?_, ?_, hC.nodup⟩
    · rintro s v l v' b (h | h) ha
      · exact .inl (hD.closed s v l v' b h ha)
      · exact .inr ((hU s v').1 (hC.closed s v l v' b ((hU s v).2 h) ha))
    · intro k
      rw [List.mem_append, hD.crossing, hC.crossing]
    · intro s z hz h
      rcases List.mem_append.1 h with h | h
      · obtain ⟨v, l, v', b, h1, h2⟩ := hD.corner s z hz h
        exact ⟨v, l, v', b, .inl h1, h2⟩
      · obtain ⟨v, l, v', b, h1, h2⟩ := hC.corner s z hz h
        exact ⟨v, l, v', b, .inr ((hU s v).1 h1), h2⟩
    · intro p hp
      rcases List.mem_append.1 hp with h | h
      · exact hD.valid p h
      · exact hC.valid p h

end Tm.Poly
