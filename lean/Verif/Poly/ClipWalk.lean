import Verif.Poly.ClipRoute

/-! # Following a polygon to the next crossing -/

namespace Tm.Poly
open Spec

variable {F : Type}

/-- From crossing `x` over the corners `l` to crossing `y`, along `prev` if `back`. -/
def Step (ps : List Pass) (x : Nat) (l : List Nat) (y : Nat) (back : Bool) : Prop :=
  ∃ p ∈ ps, (back = false ∧ x = p.a ∧ l = p.ins ∧ y = p.b) ∨ (back = true ∧ x = p.b ∧ l = p.ins.reverse ∧ y = p.a)

variable {d : List (CV F)} {n N : Nat} {ps : List Pass}

theorem pass_unique (W : Way d n N ps) {p q : Pass} (hp : p ∈ ps) (hq : q ∈ ps) {z : Nat} (h1 : z ∈ p.flat) (h2 : z ∈ q.flat) : p = q := by
  have h := (List.nodup_flatMap.1 W.nodup).2
  have h' : ps.Pairwise fun p q => p = q ∨ List.Disjoint p.flat q.flat := h.imp fun h => .inr h
  have hS : Std.Symm fun p q : Pass => p = q ∨ List.Disjoint p.flat q.flat := ⟨fun p q h => h.imp Eq.symm fun h _ a b => h b a⟩
  have := List.Pairwise.forall_of_forall (R := fun p q : Pass => p = q ∨ List.Disjoint p.flat q.flat) (fun _ _ => Or.inl rfl) h' hp hq
  rcases this with h | h
  · exact h
  · exact absurd h2 (h h1)

theorem flat_nodup (W : Way d n N ps) {p : Pass} (hp : p ∈ ps) : p.flat.Nodup := (List.nodup_flatMap.1 W.nodup).1 p hp

theorem mem_flat {p : Pass} {z : Nat} : z ∈ p.flat ↔ z = p.a ∨ z ∈ p.ins ∨ z = p.b ∨ z ∈ p.outs := by
  unfold Pass.flat
  simp

theorem pass_ne (W : Way d n N ps) {p : Pass} (hp : p ∈ ps) : p.a ≠ p.b := by
  have := flat_nodup W hp
  unfold Pass.flat at this
  rw [List.cons_append, List.nodup_cons] at this
  intro e
  exact this.1 (by rw [e]; simp)

theorem step_exists (W : Way d n N ps) {x : Nat} (h1 : n ≤ x) (h2 : x < n + N) : ∃ l y back, Step ps x l y back := by
  obtain ⟨p, hp, hx⟩ := List.mem_flatMap.1 ((W.mem x).2 h2)
  rcases mem_flat.1 hx with h | h | h | h
  · exact ⟨_, _, _, p, hp, .inl ⟨rfl, h, rfl, rfl⟩⟩
  · have := W.ins p hp x h
    omega
  · exact ⟨_, _, _, p, hp, .inr ⟨rfl, h, rfl, rfl⟩⟩
  · have := W.outs p hp x h
    omega

theorem step_end (W : Way d n N ps) {x y : Nat} {l : List Nat} {back : Bool} (h : Step ps x l y back) : n ≤ y ∧ y < n + N ∧ x ≠ y := by
  obtain ⟨p, hp, ⟨-, rfl, -, rfl⟩ | ⟨-, rfl, -, rfl⟩⟩ := h
  · exact ⟨W.b p hp, (W.mem _).1 (List.mem_flatMap.2 ⟨p, hp, by simp [mem_flat]⟩), pass_ne W hp⟩
  · exact ⟨W.a p hp, (W.mem _).1 (List.mem_flatMap.2 ⟨p, hp, by simp [mem_flat]⟩), (pass_ne W hp).symm⟩

theorem step_symm {x y : Nat} {l : List Nat} {back : Bool} (h : Step ps x l y back) : Step ps y l.reverse x (!back) := by
  obtain ⟨p, hp, ⟨rfl, rfl, rfl, rfl⟩ | ⟨rfl, rfl, rfl, rfl⟩⟩ := h
  · exact ⟨p, hp, .inr ⟨rfl, rfl, rfl, rfl⟩⟩
  · exact ⟨p, hp, .inl ⟨rfl, rfl, by simp, rfl⟩⟩

theorem step_flat {x y : Nat} {l : List Nat} {back : Bool} (h : Step ps x l y back) :
    ∃ p ∈ ps, x ∈ p.flat ∧ y ∈ p.flat ∧ (∀ z ∈ l, z ∈ p.ins) ∧ (x = p.a ∧ y = p.b ∨ x = p.b ∧ y = p.a) := by
  obtain ⟨p, hp, ⟨rfl, rfl, rfl, rfl⟩ | ⟨rfl, rfl, rfl, rfl⟩⟩ := h
  · exact ⟨p, hp, by simp [mem_flat], by simp [mem_flat], fun z hz => hz, .inl ⟨rfl, rfl⟩⟩
  · exact ⟨p, hp, by simp [mem_flat], by simp [mem_flat], fun z hz => by simpa using hz, .inr ⟨rfl, rfl⟩⟩

theorem step_unique (W : Way d n N ps) {x y y' : Nat} {l l' : List Nat} {back back' : Bool} (h : Step ps x l y back) (h' : Step ps x l' y' back') :
    l = l' ∧ y = y' ∧ back = back' := by
  obtain ⟨p, hp, hx, -⟩ := step_flat h
  obtain ⟨q, hq, hx', -⟩ := step_flat h'
  have hpq := pass_unique W hp hq hx hx'
  subst hpq
  have hne := pass_ne W hp
  obtain ⟨p1, hp1, h⟩ := h
  obtain ⟨p2, hp2, h'⟩ := h'
  have e1 : p1 = p := pass_unique W hp1 hp (by rcases h with ⟨-, rfl, -⟩ | ⟨-, rfl, -⟩ <;> simp [mem_flat]) hx
  have e2 : p2 = p := pass_unique W hp2 hp (by rcases h' with ⟨-, rfl, -⟩ | ⟨-, rfl, -⟩ <;> simp [mem_flat]) hx
  subst e1
  subst e2
  rcases h with ⟨rfl, rfl, rfl, rfl⟩ | ⟨rfl, rfl, rfl, rfl⟩ <;> rcases h' with ⟨rfl, h, rfl, rfl⟩ | ⟨rfl, h, rfl, rfl⟩
  · exact ⟨rfl, rfl, rfl⟩
  · exact absurd h hne
  · exact absurd h.symm hne
  · exact ⟨rfl, rfl, rfl⟩

theorem step_exit (W : Way d n N ps) {x y : Nat} {l : List Nat} {back : Bool} (h : Step ps x l y back) {v : CV F} (hv : d[x]? = some v) :
    v.exit = back := by
  obtain ⟨p, hp, ⟨rfl, rfl, -, -⟩ | ⟨rfl, rfl, -, -⟩⟩ := h
  · exact W.entry p hp v hv
  · exact W.exit p hp v hv

theorem step_corner (W : Way d n N ps) {x y : Nat} {l : List Nat} {back : Bool} (h : Step ps x l y back) : (∀ z ∈ l, z < n) ∧ l.Nodup := by
  obtain ⟨p, hp, h⟩ := h
  have hnd : p.ins.Nodup := by
    have := flat_nodup W hp
    unfold Pass.flat at this
    exact ((List.nodup_append'.1 this).1.of_cons)
  rcases h with ⟨-, -, rfl, -⟩ | ⟨-, -, rfl, -⟩
  · exact ⟨W.ins p hp, hnd⟩
  · exact ⟨fun z hz => W.ins p hp z (List.mem_reverse.1 hz), List.nodup_reverse.2 hnd⟩

theorem step_disjoint (W : Way d n N ps) {x y x' y' z : Nat} {l l' : List Nat} {back back' : Bool} (h : Step ps x l y back)
    (h' : Step ps x' l' y' back') (hz : z ∈ l) (hz' : z ∈ l') : x' = x ∨ x' = y := by
  obtain ⟨p, hp, -, -, hl, h⟩ := step_flat h
  obtain ⟨q, hq, -, -, hl', h'⟩ := step_flat h'
  have e := pass_unique W hp hq (mem_flat.2 (.inr (.inl (hl z hz)))) (mem_flat.2 (.inr (.inl (hl' z hz'))))
  subst e
  omega

theorem step_chain (W : Way d n N ps) {x y : Nat} {l : List Nat} {back : Bool} (h : Step ps x l y back) :
    (x :: l ++ [y]).IsChain fun u v => if back = true then Link d v u else Link d u v := by
  obtain ⟨p, hp, ⟨rfl, rfl, rfl, rfl⟩ | ⟨rfl, rfl, rfl, rfl⟩⟩ := h
  · simpa using W.chain p hp
  · have h := W.chain p hp
    have e : p.b :: p.ins.reverse ++ [p.a] = (p.a :: p.ins ++ [p.b]).reverse := by simp
    rw [e, List.isChain_reverse]
    simpa [flip] using h

/-! ## Memory -/

/-- A vertex without the flag that it was processed. -/
def clear (v : CV F) : CV F := { v with processed := false }

/-- Data are the same except for the flags that vertices were processed. -/
def Eqp (d d0 : List (CV F)) : Prop := d.map clear = d0.map clear

theorem eqp_get {d d0 : List (CV F)} (h : Eqp d d0) {x : Nat} {v : CV F} (hv : d0[x]? = some v) : ∃ b, d[x]? = some { v with processed := b } := by
  have := congrArg (·[x]?) h
  simp only [List.getElem?_map] at this
  rw [hv] at this
  cases hd : d[x]? with
  | none =>
    rw [hd] at this
    cases this
  | some w =>
    rw [hd] at this
    refine ⟨w.processed, ?_⟩
    simp only [Option.map_some, Option.some.injEq, clear, CV.mk.injEq] at this
    cases w
    cases v
    simp_all

theorem eqp_set {d d0 : List (CV F)} (h : Eqp d d0) {x : Nat} {v w : CV F} (hv : d[x]? = some v) (hw : clear w = clear v) :
    Eqp (d.set x w) d0 := by
  unfold Eqp at *
  rw [List.map_set, ← h]
  have hx := List.getElem?_eq_some_iff.1 hv
  have : clear w = (d.map clear)[x]'(by rw [List.length_map]; exact hx.1) := by
    rw [List.getElem_map, hx.2, hw]
  rw [this, List.set_getElem_self]

theorem take_snoc {α : Type} {l : List α} {i : Nat} (h : i < l.length) (x : α) : (l.set i x).take (i + 1) = l.take i ++ [x] := by
  rw [List.take_add_one, List.take_set_of_le (Nat.le_refl i), List.getElem?_set_self h]
  rfl

theorem walk_ok {d0 : List (CV F)} {back : Bool} {size : Nat} (pos : Nat → V F) : ∀ (l : List Nat) (x y fuel : Nat) (s : Emit F), l.length < fuel →
    s.i = x → Eqp s.cur d0 → ((x :: l ++ [y]).IsChain fun u v => if back = true then Link d0 v u else Link d0 u v) →
    (∀ z ∈ l, ∃ v, d0[z]? = some v ∧ v.intersect = false ∧ v.pos = pos z) → (∃ v, d0[y]? = some v ∧ v.intersect = true ∧ v.pos = pos y) →
    s.put + l.length + 1 ≤ size → size ≤ s.vertices.length →
    ∃ s', walk back size fuel s = .ok s' ∧ s'.i = y ∧ Eqp s'.cur d0 ∧ s'.other = s.other ∧ s'.swapped = s.swapped ∧
      s'.put = s.put + l.length + 1 ∧ s'.vertices.length = s.vertices.length ∧
      s'.vertices.take s'.put = s.vertices.take s.put ++ (l ++ [y]).map pos ∧
      ∀ z : Nat, s'.cur[z]?.map (·.processed) = if z ∈ l ++ [y] then some true else s.cur[z]?.map (·.processed)
  | l, x, y, 0, _, h, _, _, _, _, _, _, _ => by omega
  | l, x, y, fuel + 1, s, hf, hi, he, hc, hl, hy, hp, hs => by
    -- the next vertex
    have hnext : ∀ w rest, x :: l ++ [y] = x :: w :: rest → (∃ v, d0[w]? = some v) →
        ∃ u, rd s.cur s.i = .ok u ∧ (if back then u.prev.toNat else u.next.toNat) = w := by
      intro w rest e hw
      rw [e, List.isChain_cons_cons] at hc
      subst hi
      cases back with
      | false =>
        simp only [Bool.false_eq_true, if_false] at hc
        obtain ⟨⟨u, hu, eu⟩, -⟩ := hc.1
        obtain ⟨b, hb⟩ := eqp_get he hu
        exact ⟨_, rd_some hb, eu⟩
      | true =>
        simp only [if_true] at hc
        obtain ⟨-, u, hu, eu⟩ := hc.1
        obtain ⟨b, hb⟩ := eqp_get he hu
        exact ⟨_, rd_some hb, eu⟩
    cases l with
    | nil =>
      obtain ⟨v, hv, hiv, hpv⟩ := hy
      obtain ⟨u, e1, e2⟩ := hnext y [] rfl ⟨v, hv⟩
      obtain ⟨b, hb⟩ := eqp_get he hv
      have hyl := (List.getElem?_eq_some_iff.1 hb).1
      unfold walk
      rw [e1, ok_bind]
      dsimp only
      rw [e2, rd_some hb, ok_bind, wr_ok hyl, ok_bind, assert_ok (by simpa using hp), ok_bind, wr_ok (by simp at hp; omega), ok_bind]
      rw [if_pos (show _ = true from hiv)]
      refine ⟨_, rfl, rfl, ?_, rfl, rfl, rfl, List.length_set, ?_, fun z => ?_⟩
      · exact eqp_set he hb rfl
      · simp only
        rw [take_snoc (by simp at hp; omega), hpv]
        rfl
      · simp only [List.nil_append, List.mem_singleton]
        by_cases h : z = y
        · subst h
          rw [List.getElem?_set_self hyl, if_pos rfl]
          rfl
        · rw [List.getElem?_set_ne (Ne.symm h), if_neg h]
    | cons w l =>
      obtain ⟨v, hv, hiv, hpv⟩ := hl w List.mem_cons_self
      obtain ⟨u, e1, e2⟩ := hnext w (l ++ [y]) rfl ⟨v, hv⟩
      obtain ⟨b, hb⟩ := eqp_get he hv
      have hyl := (List.getElem?_eq_some_iff.1 hb).1
      rw [List.length_cons] at hp hf
      unfold walk
      rw [e1, ok_bind]
      dsimp only
      rw [e2, rd_some hb, ok_bind, wr_ok hyl, ok_bind, assert_ok (by simp; omega), ok_bind, wr_ok (by omega), ok_bind]
      rw [if_neg (show ¬ _ = true by simp [hiv])]
      obtain ⟨s', r1, r2, r3, r4, r5, r6, r7, r8, r9⟩ := walk_ok (d0 := d0) (back := back) (size := size) pos l w y fuel
        { s with cur := s.cur.set w { v with processed := true }, i := w, put := s.put + 1, vertices := s.vertices.set s.put v.pos }
        (by omega) rfl (eqp_set he hb rfl) (by
          rw [List.cons_append, List.cons_append, List.isChain_cons_cons] at hc
          exact hc.2)
        (fun z hz => hl z (List.mem_cons_of_mem _ hz)) hy (by simp only; omega) (by simp only [List.length_set]; exact hs)
      refine ⟨s', r1, r2, r3, r4, r5, by rw [r6, List.length_cons]; simp only; omega, by rw [r7, List.length_set], ?_, fun z => ?_⟩
      · rw [r8]
        simp only
        rw [take_snoc (by omega), hpv]
        simp
      · rw [r9]
        by_cases h : z ∈ l ++ [y]
        · rw [if_pos h, if_pos (by rw [List.cons_append]; exact List.mem_cons_of_mem _ h)]
        · rw [if_neg h]
          simp only
          by_cases h' : z = w
          · subst h'
            rw [List.getElem?_set_self hyl, if_pos (by simp)]
            rfl
          · rw [List.getElem?_set_ne (Ne.symm h'), if_neg (by rw [List.cons_append, List.mem_cons]; tauto)]

theorem jump_ok {s : Emit F} {v w : CV F} (hv : s.cur[s.i]? = some v) (hw : s.other[v.neighbor.toNat]? = some w) (hi : w.intersect = true) :
    jump s = .ok ⟨s.other.set v.neighbor.toNat { w with processed := true }, s.cur, !s.swapped, v.neighbor.toNat, s.put, s.vertices⟩ := by
  unfold jump
  rw [rd_some hv, ok_bind]
  dsimp only
  rw [rd_some hw, ok_bind, wr_ok (List.getElem?_eq_some_iff.1 hw).1, ok_bind, assert_ok hi, ok_bind]

end Tm.Poly
