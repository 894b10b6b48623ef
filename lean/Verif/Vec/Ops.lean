import Verif.Vec.Insert

/-! # Every operation keeps the invariant -/

namespace Tm.Vec

open Tm

variable {α : Type}

theorem popBack_ok {c : Cfg} {M : Nat} {rest : List Nat} {h : Heap} {v : Vec α} {l : List (Option α)} (i : Inv c M rest h v l) (hl : l ≠ []) :
    ∃ m, popBack c v = .ok { v with mem := m, sz := l.length - 1 } ∧ Inv c M rest h { v with mem := m, sz := l.length - 1 } l.dropLast := by
  have hpos : 0 < l.length := List.length_pos_iff.mpr hl
  have hsz := i.size
  have hle := i.le
  have hlen := i.len
  unfold popBack
  rw [assert_ok (i.ptr_ne (by omega)), ok_bind, assert_ok (by omega), ok_bind]
  have hget : ∀ k x, l.dropLast[k]? = some x → k < l.length - 1 ∧ l[k]? = some x := by
    intro k x hk
    have := (List.getElem?_eq_some_iff.mp hk).1
    rw [List.length_dropLast] at this
    rw [List.getElem?_dropLast, if_pos this] at hk
    exact ⟨this, hk⟩
  by_cases htr : c.triv = true
  · rw [destroyAt_triv _ _ htr, ok_bind, hsz]
    refine ⟨v.mem, rfl, i.update ⟨fun k x hk => i.has.obj k x (hget k x hk).2, fun h0 => absurd htr (by rw [h0]; simp)⟩ rfl ?_ ?_⟩
    · rw [List.length_dropLast]; omega
    · rw [List.length_dropLast]
  · have htr' : c.triv = false := by simpa using htr
    rw [destroyAt_ok htr' (by omega) (i.has.exists_obj (by omega)), ok_bind, hsz]
    refine ⟨_, rfl, i.update ⟨fun k x hk => ?_, fun h0 k hk => ?_⟩ rfl ?_ ?_⟩
    · have := hget k x hk
      rw [set_ne _ _ (by omega)]
      exact i.has.obj k x this.2
    · rw [List.length_dropLast] at hk
      rw [set_cell]
      split
      · rfl
      · exact i.has.raw h0 k (by omega)
    · rw [List.length_dropLast]; omega
    · rw [List.length_dropLast]

theorem destroyRange_has {c : Cfg} {m : Mem α} {l : List (Option α)} (hm : Has c m l) (hl : l.length ≤ m.len) {n : Nat} (hn : n ≤ l.length) :
    ∃ m', destroyRange c (l.length - n) m n = .ok m' ∧ m'.len = m.len ∧ Has c m' (l.take n) := by
  by_cases htr : c.triv = true
  · rw [destroyRange_triv htr]
    refine ⟨m, rfl, rfl, fun k x hk => ?_, fun h0 => absurd htr (by rw [h0]; simp)⟩
    have hlt := (List.getElem?_eq_some_iff.mp hk).1
    rw [List.length_take] at hlt
    rw [List.getElem?_take, if_pos (by omega)] at hk
    exact hm.obj k x hk
  · have htr' : c.triv = false := by simpa using htr
    obtain ⟨m', e1, e2, e3⟩ := destroyRange_obj htr' (l.length - n) m n (by omega) (fun k a b => hm.exists_obj (by omega))
    refine ⟨m', e1, e2, fun k x hk => ?_, fun h0 k hk => ?_⟩
    · have hlt := (List.getElem?_eq_some_iff.mp hk).1
      rw [List.length_take] at hlt
      rw [List.getElem?_take, if_pos (by omega)] at hk
      rw [e3, if_neg (by omega)]
      exact hm.obj k x hk
    · rw [List.length_take] at hk
      rw [e3]
      split
      · rfl
      · exact hm.raw h0 k (by omega)

theorem clear_ok {c : Cfg} {M : Nat} {rest : List Nat} {h : Heap} {v : Vec α} {l : List (Option α)} (i : Inv c M rest h v l) :
    ∃ m, clear c v = .ok { v with mem := m, sz := 0 } ∧ Inv c M rest h { v with mem := m, sz := 0 } [] := by
  have hle := i.le
  have hlen := i.len
  unfold clear
  rw [i.valid_ok, ok_bind]
  obtain ⟨m, e1, e2, e3⟩ := destroyRange_has i.has (by omega) (Nat.zero_le _)
  rw [Nat.sub_zero, ← i.size] at e1
  rw [e1, ok_bind]
  exact ⟨m, rfl, i.update e3 e2 (Nat.zero_le _) rfl⟩

theorem destroy_ok {c : Cfg} {M : Nat} {rest : List Nat} {h : Heap} {v : Vec α} {l : List (Option α)} (i : Inv c M rest h v l) :
    ∃ h' w, destroy c h v = .ok (h', w) ∧ Inv c M rest h' w [] ∧ h'.ok = h.ok ∧ h'.live.Perm rest ∧ blocks w = [] ∧
      (∀ k, c.triv = false → w.mem.cell k = .raw) := by
  have hle := i.le
  have hlen := i.len
  obtain ⟨m, e1, e2, e3⟩ := destroyRange_has i.has (by omega) (Nat.zero_le _)
  rw [Nat.sub_zero, ← i.size] at e1
  unfold destroy
  rw [e1, ok_bind]
  have hpl := i.place
  have hlv := i.live
  unfold Place at hpl
  unfold blocks at hlv
  by_cases hs : (c.fixed || v.sbo) = true
  · rw [if_pos hs]
    have hblk : blocks v = [] := by
      unfold blocks
      cases hp : v.ptr with
      | null => rfl
      | sbo => rfl
      | heap id =>
        rw [hp] at hpl
        rw [hpl.1, hpl.2] at hs
        exact absurd hs (by simp)
    refine ⟨_, _, rfl, i.update e3 e2 (Nat.zero_le _) rfl, rfl, ?_, hblk, fun k hc => e3.raw hc k (Nat.zero_le _)⟩
    have := i.live
    rw [hblk] at this
    exact this
  · rw [if_neg hs, leave_ok (fun hc k _ => e3.raw hc k (Nat.zero_le _)), ok_bind]
    have hnone : ∀ h' : Heap, h'.Ok → h'.live.Perm rest → Inv c M rest h' (Vec.none : Vec α) [] := fun h' a b =>
      ⟨rfl, ⟨nofun, fun _ _ _ => rfl⟩, Nat.le_refl _, Nat.le_refl _, Nat.zero_le _, ⟨rfl, rfl⟩, a, b⟩
    cases hp : v.ptr with
    | null =>
      rw [hp] at hlv
      exact ⟨_, _, rfl, hnone h i.heap hlv, rfl, hlv, rfl, fun _ _ => rfl⟩
    | sbo =>
      rw [hp] at hpl
      rw [hpl.1] at hs
      exact absurd hs (by simp)
    | heap id =>
      rw [hp] at hlv
      have hmem : id ∈ h.live := hlv.mem_iff.mpr (by simp)
      unfold free
      dsimp only
      rw [if_pos (by simp [hmem]), ok_bind]
      exact ⟨_, _, rfl, hnone _ (heap_erase i.heap id) (live_erase hlv), rfl, live_erase hlv, rfl, fun _ _ => rfl⟩

theorem erase_ok {c : Cfg} {M : Nat} {rest : List Nat} {h : Heap} {v : Vec α} {l : List (Option α)} (i : Inv c M rest h v l) {first last : Nat}
    (h1 : first ≤ last) (h2 : last ≤ l.length) :
    ∃ m, erase c v first last = .ok { v with mem := m, sz := l.length - (last - first) } ∧
      Inv c M rest h { v with mem := m, sz := l.length - (last - first) } (l.take first ++ l.drop last) := by
  have hsz := i.size
  have hle := i.le
  have hlen := i.len
  have hll : (l.take first ++ l.drop last).length = l.length - (last - first) := by
    rw [List.length_append, List.length_take, List.length_drop]
    omega
  have hget : ∀ k, (l.take first ++ l.drop last)[k]? = if k < first then l[k]? else l[k + (last - first)]? := by
    intro k
    by_cases hk : k < first
    · rw [if_pos hk, List.getElem?_append_left (by rw [List.length_take]; omega), List.getElem?_take, if_pos hk]
    · rw [if_neg hk, List.getElem?_append_right (by rw [List.length_take]; omega), List.getElem?_drop, List.length_take]
      congr 1
      omega
  unfold erase
  rw [i.valid_ok, ok_bind, assert_ok (by omega), ok_bind, assert_ok (by omega), ok_bind, assert_ok h1, ok_bind]
  by_cases hf : first = last
  · rw [if_pos hf]
    refine ⟨v.mem, ?_, i.update ?_ rfl (by rw [hll]; omega) hll.symm⟩
    · rw [hf, Nat.sub_self, Nat.sub_zero, ← hsz]
    · rw [hf, List.take_append_drop]
      exact i.has
  · rw [if_neg hf]
    by_cases htr : c.triv = true
    · rw [if_pos htr]
      have hnt : ∀ {p : Prop}, c.triv = false → p := fun h0 => absurd htr (by rw [h0]; simp)
      by_cases hl : last = v.sz
      · rw [if_pos hl, ok_bind, hsz]
        refine ⟨v.mem, rfl, i.update ⟨fun k x hk => ?_, hnt⟩ rfl (by rw [hll]; omega) hll.symm⟩
        have hlt := (List.getElem?_eq_some_iff.mp hk).1
        rw [hget, if_pos (by omega)] at hk
        exact i.has.obj k x hk
      · rw [if_neg hl]
        obtain ⟨m, e1, e2, e3⟩ := memmove_ok v.mem first last (v.sz - last) (by omega) (by omega)
        rw [e1, ok_bind, hsz]
        refine ⟨m, rfl, i.update ⟨fun k x hk => ?_, hnt⟩ e2 (by rw [hll]; omega) hll.symm⟩
        have hlt := (List.getElem?_eq_some_iff.mp hk).1
        rw [hget] at hk
        rw [e3]
        by_cases hkf : k < first
        · rw [if_pos hkf] at hk
          rw [if_neg (by omega)]
          exact i.has.obj k x hk
        · rw [if_neg hkf] at hk
          rw [if_pos (by omega), show k - first + last = k + (last - first) from by omega]
          exact i.has.obj _ x hk
    · have htr' : c.triv = false := by simpa using htr
      rw [if_neg htr]
      have hstep : ∃ m1, (if last = v.sz then Except.ok v.mem else moveDown c (v.sz - last) v.mem first last) = .ok m1 ∧ m1.len = v.mem.len ∧
          (∀ k, k < first → m1.cell k = v.mem.cell k) ∧ (∀ k, first ≤ k → k < l.length - (last - first) → m1.cell k = v.mem.cell (k + (last - first))) ∧
          (∀ k, l.length - (last - first) ≤ k → k < l.length → ∃ y, m1.cell k = .obj y) ∧ ∀ k, l.length ≤ k → m1.cell k = .raw := by
        by_cases hl : last = v.sz
        · rw [if_pos hl]
          exact ⟨_, rfl, rfl, fun k _ => rfl, fun k a b => by omega, fun k a b => i.has.exists_obj b, fun k hk => i.has.raw htr' k hk⟩
        · rw [if_neg hl]
          obtain ⟨m, e1, e2, e3, e4, e5⟩ := moveDown_ok htr' (v.sz - last) v.mem first last (by omega) (by omega) (fun k a b => i.has.exists_obj (by omega))
          exact ⟨m, e1, e2, fun k hk => e5 k (by omega), fun k a b => e3 k a (by omega), fun k a b => e4 k (by omega) (by omega),
            fun k hk => by rw [e5 k (by omega)]; exact i.has.raw htr' k hk⟩
      obtain ⟨m1, e1, e2, e3, e4, e5, e6⟩ := hstep
      have hm1 : Has c m1 ((l.take first ++ l.drop last) ++ (List.range' (l.length - (last - first)) (last - first)).map (fun k => match m1.cell k with | .obj y => y | .raw => none)) := by
        refine ⟨fun k x hk => ?_, fun _ k hk => ?_⟩
        · by_cases hkk : k < l.length - (last - first)
          · rw [List.getElem?_append_left (by omega), hget] at hk
            by_cases hkf : k < first
            · rw [if_pos hkf] at hk
              rw [e3 k hkf]
              exact i.has.obj k x hk
            · rw [if_neg hkf] at hk
              rw [e4 k (by omega) hkk]
              exact i.has.obj _ x hk
          · have hlt := (List.getElem?_eq_some_iff.mp hk).1
            rw [List.length_append, hll, List.length_map, List.length_range'] at hlt
            rw [List.getElem?_append_right (by omega), hll, List.getElem?_map, List.getElem?_range' (by omega)] at hk
            obtain ⟨y, hy⟩ := e5 k (by omega) (by omega)
            rw [Option.map_some, show l.length - (last - first) + 1 * (k - (l.length - (last - first))) = k from by omega, hy] at hk
            injection hk with hk
            rw [hy, ← hk]
        · rw [List.length_append, hll, List.length_map, List.length_range'] at hk
          exact e6 k (by omega)
      obtain ⟨m2, f1, f2, f3⟩ := destroyRange_has (n := l.length - (last - first)) hm1
        (by rw [List.length_append, hll, List.length_map, List.length_range']; omega) (by rw [List.length_append, hll]; omega)
      rw [List.length_append, hll, List.length_map, List.length_range', show l.length - (last - first) + (last - first) - (l.length - (last - first)) = last - first from by omega] at f1
      rw [List.take_append_of_le_length (by omega), List.take_of_length_le (by omega)] at f3
      rw [hsz] at e1 ⊢
      rw [if_do e1]
      dsimp only
      rw [f1, ok_bind]
      exact ⟨m2, rfl, i.update f3 (f2.trans e2) (by rw [hll]; omega) hll.symm⟩

/-! ### The arguments -/

theorem temp_ok {c : Cfg} {M : Nat} {rest : List Nat} {h : Heap} {v : Vec α} {l : List (Option α)} (i : Inv c M rest h v l) {s : Src α} (hs : s.Exists l) :
    temp v s = .ok (val l s) := by
  cases s with
  | ext x => rfl
  | own k =>
    have hk : k < l.length := hs
    unfold temp val
    dsimp only
    rw [i.at_ok (List.getElem?_eq_getElem hk), List.getElem?_eq_getElem hk]
    rfl

theorem gone_length (triv : Bool) (l : List (Option α)) (s : Src α) : (gone triv l s).length = l.length := by
  unfold gone
  split
  · rfl
  · split
    · rfl
    · exact List.length_set

theorem tempMove_ok {c : Cfg} {M : Nat} {rest : List Nat} {h : Heap} {v : Vec α} {l : List (Option α)} (i : Inv c M rest h v l) {s : Src α} (hs : s.Exists l) :
    ∃ m, tempMove c v s = .ok (val l s, { v with mem := m, sz := l.length }) ∧ Inv c M rest h { v with mem := m, sz := l.length } (gone c.triv l s) := by
  have hsz := i.size
  have hle := i.le
  have hlen := i.len
  cases s with
  | ext x =>
    refine ⟨v.mem, ?_, i.update i.has rfl hle rfl⟩
    rw [← hsz]
    rfl
  | own k =>
    have hk : k < l.length := hs
    unfold tempMove val gone
    dsimp only
    rw [i.at_ok (List.getElem?_eq_getElem hk), ok_bind, take_ok c (by omega) (i.has.object hk), ok_bind, List.getElem?_eq_getElem hk]
    by_cases htr : c.triv = true
    · rw [if_pos htr, if_pos htr]
      refine ⟨v.mem, ?_, i.update i.has rfl hle rfl⟩
      rw [← hsz]
      rfl
    · rw [if_neg htr, if_neg htr]
      refine ⟨v.mem.set k (.obj none), ?_, i.update ⟨fun j x hj => ?_, fun h0 j hj => ?_⟩ rfl (by rw [List.length_set]; exact hle) List.length_set.symm⟩
      · rw [← hsz]
        rfl
      · rw [List.getElem?_set] at hj
        rw [set_cell]
        by_cases e : k = j
        · rw [if_pos e, if_pos (e ▸ hk)] at hj
          rw [if_pos e.symm]
          injection hj with hj
          rw [hj]
        · rw [if_neg e] at hj
          rw [if_neg (Ne.symm e)]
          exact i.has.obj j x hj
      · rw [List.length_set] at hj
        rw [set_ne _ _ (by omega)]
        exact i.has.raw h0 j hj

/-! ### Assignment -/

theorem overwrite_ok {c : Cfg} {M : Nat} {rest : List Nat} {h : Heap} {v : Vec α} {l xs : List (Option α)} (i : Inv c M rest h v l) (hp : v.ptr ≠ .null)
    (hx : xs.length ≤ v.cap) :
    ∃ m, overwrite c v xs = .ok { v with mem := m, sz := xs.length } ∧ Inv c M rest h { v with mem := m, sz := xs.length } xs := by
  have hsz := i.size
  have hle := i.le
  have hlen := i.len
  unfold overwrite
  rw [assert_ok hp, ok_bind]
  obtain ⟨m1, e1, e2, e3, e4⟩ := assignList_ok c (xs.take v.sz) v.mem 0 (by rw [List.length_take]; omega) (fun _ k _ b => by
    rw [List.length_take] at b
    exact i.has.exists_obj (by omega))
  rw [List.length_take] at e4
  rw [e1, ok_bind]
  obtain ⟨m2, f1, f2, f3, f4⟩ := constructList_ok c (xs.drop v.sz) m1 (min v.sz xs.length) (by rw [List.length_drop]; omega) (fun hc k a b => by
    rw [List.length_drop] at b
    rw [e4 k (by omega)]
    exact i.has.raw hc k (by omega))
  rw [List.length_drop] at f4
  rw [f1, ok_bind]
  have hm2 : ∀ k x, xs[k]? = some x → m2.cell k = .obj x := by
    intro k x hk
    have hlt := (List.getElem?_eq_some_iff.mp hk).1
    by_cases hk2 : k < v.sz
    · rw [f4 k (by omega)]
      have := e3 k x (by rw [List.getElem?_take, if_pos hk2]; exact hk)
      rwa [Nat.zero_add] at this
    · have := f3 (k - v.sz) x (by rw [List.getElem?_drop, show v.sz + (k - v.sz) = k from by omega]; exact hk)
      rwa [show min v.sz xs.length + (k - v.sz) = k from by omega] at this
  by_cases htr : c.triv = true
  · rw [destroyRange_triv htr, ok_bind]
    exact ⟨m2, rfl, i.update ⟨hm2, fun h0 => absurd htr (by rw [h0]; simp)⟩ (f2.trans e2) hx rfl⟩
  · have htr' : c.triv = false := by simpa using htr
    obtain ⟨m3, g1, g2, g3⟩ := destroyRange_obj htr' (v.sz - xs.length) m2 xs.length (by omega) (fun k a b => by
      rw [f4 k (by omega), e4 k (by omega)]
      exact i.has.exists_obj (by omega))
    rw [g1, ok_bind]
    refine ⟨m3, rfl, i.update ⟨fun k x hk => ?_, fun _ k hk => ?_⟩ (g2.trans (f2.trans e2)) hx rfl⟩
    · have hlt := (List.getElem?_eq_some_iff.mp hk).1
      rw [g3, if_neg (by omega)]
      exact hm2 k x hk
    · rw [g3]
      split
      · rfl
      · rw [f4 k (by omega), e4 k (by omega)]
        exact i.has.raw htr' k (by omega)

theorem assignN_ok {c : Cfg} {M : Nat} {rest : List Nat} {h : Heap} {v : Vec α} {l : List (Option α)} (ha : Addressable c M) (i : Inv c M rest h v l)
    {n : Nat} {s : Src α} (hn : 1 ≤ n) (hs : s.Exists l) (hM : n ≤ M) :
    Good c M rest h v (List.replicate n (val l s)) [] n (assignN c h v n s) := by
  unfold assignN
  rw [i.valid_ok, ok_bind, temp_ok i hs, ok_bind]
  by_cases hc : n > v.cap
  · rw [if_pos hc]
    obtain ⟨h1, w1, e1, e2, e3, e4, e5, e6⟩ := destroy_ok i
    rw [e1, ok_bind]
    obtain ⟨h2, w2, f1, f2, f3, f4, f5, f6, f7⟩ := create_ok (α := α) (cap := n) ha e2.heap e4 (by omega)
    dsimp only
    rw [f1, ok_bind]
    dsimp only
    by_cases hp : w2.ptr = .null
    · rw [if_pos hp]
      exact ⟨_, _, _, rfl, f2, f3.trans e3, fun a b => absurd hp (f4 a (by rw [e3]; exact b)), fun hx => absurd hx (by omega), nofun⟩
    · rw [if_neg hp]
      obtain ⟨m, g1, g2⟩ := overwrite_ok f2 hp (xs := List.replicate n (val l s)) (by rw [List.length_replicate, (f5 hp).1])
      rw [g1, ok_bind]
      exact ⟨_, _, _, rfl, g2, f3.trans e3, fun _ _ => rfl, fun hx => absurd hx (by omega), fun h0 _ => absurd h0 (by rw [f7 hp]; simp)⟩
  · rw [if_neg hc]
    obtain ⟨m, g1, g2⟩ := overwrite_ok i (i.ptr_ne (by omega)) (xs := List.replicate n (val l s)) (by rw [List.length_replicate]; omega)
    rw [g1, ok_bind]
    exact ⟨_, _, _, rfl, g2, rfl, fun _ _ => rfl, fun _ => ⟨rfl, rfl, rfl, rfl⟩, fun _ _ => ⟨rfl, rfl⟩⟩

theorem clear_good {c : Cfg} {M : Nat} {rest : List Nat} {h : Heap} {v : Vec α} {l lf : List (Option α)} {need : Nat} (i : Inv c M rest h v l) :
    Good c M rest h v [] lf need (do
      let v ← clear c v
      .ok (h, v, true)) := by
  obtain ⟨m, e1, e2⟩ := clear_ok i
  rw [e1, ok_bind]
  exact ⟨_, _, _, rfl, e2, rfl, fun _ _ => rfl, fun _ => ⟨rfl, rfl, rfl, rfl⟩, fun _ _ => ⟨rfl, rfl⟩⟩

theorem assignRange_ok {c : Cfg} {M : Nat} {rest : List Nat} {h : Heap} {v : Vec α} {l : List (Option α)} (ha : Addressable c M) (i : Inv c M rest h v l)
    {r : Range α} (hr : Sensible M l (.assignRange r)) :
    Good c M rest h v (elements l r) [] (elements l r).length (assignRange c h v r) := by
  have hsz := i.size
  have hle := i.le
  have hlen := i.len
  unfold assignRange
  cases r with
  | null => exact clear_good i
  | own first last =>
    obtain ⟨h1, h2⟩ : first ≤ last ∧ last ≤ l.length := hr
    dsimp only
    rw [assert_true (by simp [h1, hsz, h2]), ok_bind]
    have hel : ∀ k, ((l.take last).drop first)[k]? = if k < last - first then l[k + first]? else none := by
      intro k
      rw [List.getElem?_drop, List.getElem?_take, Nat.add_comm]
      by_cases hk : k < last - first
      · rw [if_pos hk, if_pos (by omega)]
      · rw [if_neg hk, if_neg (by omega)]
    have hll : ((l.take last).drop first).length = last - first := by
      rw [List.length_drop, List.length_take]
      omega
    by_cases hf : first = last
    · rw [if_pos hf]
      have : elements l (.own first last) = [] := List.length_eq_zero_iff.mp (by show ((l.take last).drop first).length = 0; omega)
      rw [this]
      exact clear_good i
    · rw [if_neg hf, assert_ok (i.ptr_ne (by omega)), ok_bind]
      have hstep : ∃ m1, (if c.triv = true then memmove v.mem 0 first (last - first) else copyDown c (last - first) v.mem 0 first) = .ok m1 ∧
          m1.len = v.mem.len ∧ (∀ k, k < last - first → m1.cell k = v.mem.cell (k + first)) ∧ ∀ k, last - first ≤ k → m1.cell k = v.mem.cell k := by
        by_cases htr : c.triv = true
        · rw [if_pos htr]
          obtain ⟨m1, e1, e2, e3⟩ := memmove_ok v.mem 0 first (last - first) (by omega) (by omega)
          refine ⟨m1, e1, e2, fun k hk => ?_, fun k hk => ?_⟩
          · rw [e3, if_pos (by omega)]
            rfl
          · rw [e3, if_neg (by omega)]
        · rw [if_neg htr]
          obtain ⟨m1, e1, e2, e3, e4⟩ := copyDown_ok (c := c) (last - first) v.mem 0 first (Nat.zero_le _) (by omega) (fun k _ b => i.has.exists_obj (by omega))
          exact ⟨m1, e1, e2, fun k hk => e3 k (Nat.zero_le _) (by omega), fun k hk => e4 k (by omega)⟩
      obtain ⟨m1, e1, e2, e3, e4⟩ := hstep
      rw [if_do e1]
      have hobj : ∀ k x, ((l.take last).drop first)[k]? = some x → m1.cell k = .obj x := by
        intro k x hk
        have hlt := (List.getElem?_eq_some_iff.mp hk).1
        rw [hel, if_pos (by omega)] at hk
        rw [e3 k (by omega)]
        exact i.has.obj _ x hk
      by_cases htr : c.triv = true
      · rw [destroyRange_triv htr, ok_bind]
        exact ⟨_, _, _, rfl, i.update (l' := elements l (.own first last)) ⟨hobj, fun h0 => absurd htr (by rw [h0]; simp)⟩ e2
          (by show ((l.take last).drop first).length ≤ _; omega) hll.symm, rfl, fun _ _ => rfl, fun _ => ⟨rfl, rfl, rfl, rfl⟩, fun _ _ => ⟨rfl, rfl⟩⟩
      · have htr' : c.triv = false := by simpa using htr
        obtain ⟨m3, g1, g2, g3⟩ := destroyRange_obj htr' (v.sz - (last - first)) m1 (last - first) (by omega) (fun k a b => by
          rw [e4 k a]
          exact i.has.exists_obj (by omega))
        rw [g1, ok_bind]
        refine ⟨_, _, _, rfl, i.update (l' := elements l (.own first last)) ⟨fun k x hk => ?_, fun _ k hk => ?_⟩ (g2.trans e2)
          (by show ((l.take last).drop first).length ≤ _; omega) hll.symm, rfl, fun _ _ => rfl, fun _ => ⟨rfl, rfl, rfl, rfl⟩, fun _ _ => ⟨rfl, rfl⟩⟩
        · have hlt := (List.getElem?_eq_some_iff.mp hk).1
          have hll' : (elements l (.own first last)).length = last - first := hll
          rw [g3, if_neg (by omega)]
          exact hobj k x hk
        · have hll' : (elements l (.own first last)).length = last - first := hll
          rw [g3]
          split
          · rfl
          · rw [e4 k (by omega)]
            exact i.has.raw htr' k (by omega)
  | ext xs =>
    have hx : xs.length ≤ M := hr
    dsimp only
    by_cases h0 : xs.length = 0
    · rw [if_pos h0, show elements l (.ext xs) = [] from List.length_eq_zero_iff.mp h0]
      exact clear_good i
    · rw [if_neg h0]
      by_cases hc : xs.length > v.cap
      · rw [if_pos hc]
        obtain ⟨h1, w1, e1, e2, e3, e4, e5, e6⟩ := destroy_ok i
        rw [e1, ok_bind]
        obtain ⟨h2, w2, f1, f2, f3, f4, f5, f6, f7⟩ := create_ok (α := α) (cap := xs.length) ha e2.heap e4 (by omega)
        dsimp only
        rw [f1, ok_bind]
        dsimp only
        have hlive2 : h2.live.Perm (blocks w2 ++ rest) := f2.live
        by_cases hp : w2.ptr = .null
        · rw [if_pos hp]
          refine ⟨_, _, _, rfl, ⟨e2.size, e2.has, e2.le, e2.len, e2.bound, e2.place, f2.heap, ?_⟩, f3.trans e3, fun a b => absurd hp (f4 a (by rw [e3]; exact b)), fun hx => absurd hx (by show ¬ xs.length ≤ _; omega), nofun⟩
          rw [e5]
          unfold blocks at hlive2
          rw [hp] at hlive2
          exact hlive2
        · rw [if_neg hp]
          obtain ⟨m, g1, g2⟩ := overwrite_ok f2 hp (xs := xs) (by rw [(f5 hp).1])
          rw [g1, ok_bind]
          have iw : Inv c M (blocks w2 ++ rest) h2 w1 [] := ⟨e2.size, e2.has, e2.le, e2.len, e2.bound, e2.place, f2.heap, by rw [e5]; exact hlive2⟩
          obtain ⟨h3, w3, k1, k2, k3, k4, k5, k6⟩ := destroy_ok iw
          rw [k1, ok_bind]
          exact ⟨_, _, _, rfl, ⟨g2.size, g2.has, g2.le, g2.len, g2.bound, g2.place, k2.heap, k4⟩, k3.trans (f3.trans e3), fun _ _ => rfl,
            fun hx => absurd hx (by show ¬ xs.length ≤ _; omega), fun h0 _ => absurd h0 (by rw [f7 hp]; simp)⟩
      · rw [if_neg hc]
        obtain ⟨m, g1, g2⟩ := overwrite_ok i (i.ptr_ne (by omega)) (xs := xs) (by omega)
        rw [g1, ok_bind]
        exact ⟨_, _, _, rfl, g2, rfl, fun _ _ => rfl, fun _ => ⟨rfl, rfl, rfl, rfl⟩, fun _ _ => ⟨rfl, rfl⟩⟩

/-! ### All of them -/

theorem emplace_ext (c : Cfg) (h : Heap) (v : Vec α) (pos : Nat) (x : Option α) : emplace c h v pos (.ext x) = insertAll c h v pos [x] := by
  unfold emplace insertAll
  rfl

theorem insertMove_ok {c : Cfg} {M : Nat} {rest : List Nat} {h : Heap} {v : Vec α} {l : List (Option α)} (ha : Addressable c M) (i : Inv c M rest h v l)
    {pos : Nat} (hpos : pos ≤ l.length) {s : Src α} (hs : s.Exists l) (hb : l.length + 1 ≤ M) :
    Good c M rest h v (inserted (gone c.triv l s) pos [val l s]) (gone c.triv l s) (l.length + 1) (insertMove c h v pos s) := by
  unfold insertMove
  rw [i.valid_ok, ok_bind]
  obtain ⟨m, e1, e2⟩ := tempMove_ok i hs
  rw [e1, ok_bind]
  have hg := gone_length c.triv l s
  obtain ⟨h', v', ok, f1, f2, f3, f4, f5, f6⟩ := insertAll_ok ha e2 (pos := pos) (xs := [val l s]) (by omega) (by simp) (by rw [hg]; exact hb)
  rw [hg] at f5
  exact ⟨h', v', ok, f1, f2, f3, f4, f5, f6⟩

theorem insertN_ok {c : Cfg} {M : Nat} {rest : List Nat} {h : Heap} {v : Vec α} {l : List (Option α)} (ha : Addressable c M) (i : Inv c M rest h v l)
    {pos n : Nat} (hpos : pos ≤ l.length) {s : Src α} (hs : s.Exists l) (hn : 1 ≤ n) (hb : l.length + n ≤ M) :
    Good c M rest h v (inserted l pos (List.replicate n (val l s))) l (l.length + n) (insertN c h v pos n s) := by
  unfold insertN
  rw [i.valid_ok, ok_bind, temp_ok i hs, ok_bind]
  have := insertAll_ok ha i hpos (xs := List.replicate n (val l s)) (by rw [List.length_replicate]; exact hn) (by rw [List.length_replicate]; exact hb)
  rwa [List.length_replicate] at this

theorem insertOne_ok {c : Cfg} {M : Nat} {rest : List Nat} {h : Heap} {v : Vec α} {l : List (Option α)} (ha : Addressable c M) (i : Inv c M rest h v l)
    {pos : Nat} (hpos : pos ≤ l.length) {s : Src α} (hs : s.Exists l) (hb : l.length + 1 ≤ M) :
    Good c M rest h v (inserted l pos [val l s]) l (l.length + 1) (insertOne c h v pos s) := by
  unfold insertOne
  rw [i.valid_ok, ok_bind, temp_ok i hs, ok_bind]
  exact insertAll_ok ha i hpos (by simp) hb

theorem exec_ok {c : Cfg} {M : Nat} {rest : List Nat} {h : Heap} {v : Vec α} {l : List (Option α)} (ha : Addressable c M) (i : Inv c M rest h v l)
    {op : Op α} (hop : Sensible M l op) :
    Good c M rest h v (apply c.triv l op) (failed c.triv l op) (demand c.triv l op) (exec c h v op) := by
  have hsz := i.size
  cases op with
  | pushBack s =>
    obtain ⟨h1, h2⟩ : s.Exists l ∧ l.length + 1 ≤ M := hop
    have := insertOne_ok ha i (Nat.le_refl _) h1 h2
    rw [inserted_end] at this
    unfold exec pushBack demand apply failed
    dsimp only
    rw [hsz, List.length_append]
    exact this
  | pushBackMove s =>
    obtain ⟨h1, h2⟩ : s.Exists l ∧ l.length + 1 ≤ M := hop
    have hg := gone_length c.triv l s
    have := insertMove_ok ha i (Nat.le_refl _) h1 h2
    rw [show inserted (gone c.triv l s) l.length [val l s] = gone c.triv l s ++ [val l s] from by rw [← hg]; exact inserted_end _ _] at this
    unfold exec pushBackMove demand apply failed
    dsimp only
    rw [hsz, List.length_append, hg]
    exact this
  | insert pos s =>
    obtain ⟨h0, h1, h2⟩ : pos ≤ l.length ∧ s.Exists l ∧ l.length + 1 ≤ M := hop
    unfold exec demand apply failed
    dsimp only
    rw [inserted_length _ _ h0]
    exact insertOne_ok ha i h0 h1 h2
  | insertMove pos s =>
    obtain ⟨h0, h1, h2⟩ : pos ≤ l.length ∧ s.Exists l ∧ l.length + 1 ≤ M := hop
    have hg := gone_length c.triv l s
    unfold exec demand apply failed
    dsimp only
    rw [inserted_length _ _ (by omega), hg]
    exact insertMove_ok ha i h0 h1 h2
  | insertN pos n s =>
    obtain ⟨h0, h3, h1, h2⟩ : pos ≤ l.length ∧ 1 ≤ n ∧ s.Exists l ∧ l.length + n ≤ M := hop
    unfold exec demand apply failed
    dsimp only
    rw [inserted_length _ _ h0, List.length_replicate]
    exact insertN_ok ha i h0 h1 h3 h2
  | insertRange pos xs =>
    obtain ⟨h0, h1⟩ : pos ≤ l.length ∧ l.length + xs.length ≤ M := hop
    unfold exec demand apply failed insertRange
    dsimp only
    rw [inserted_length _ _ h0, i.valid_ok, ok_bind, assert_true (b := !ownsRange v (.ext xs)) rfl, ok_bind, assert_ok (by omega), ok_bind]
    by_cases hx : xs.length = 0
    · have : xs = [] := List.length_eq_zero_iff.mp hx
      subst this
      rw [if_pos hx]
      refine ⟨_, _, _, rfl, ?_, rfl, fun _ _ => rfl, fun _ => ⟨rfl, rfl, rfl, rfl⟩, fun _ _ => ⟨rfl, rfl⟩⟩
      rw [if_pos rfl, show inserted l pos [] = l from by unfold inserted; rw [List.append_nil, List.take_append_drop]]
      exact i
    · rw [if_neg hx]
      exact insertAll_ok ha i h0 (by omega) h1
  | emplace pos x =>
    obtain ⟨h0, h1⟩ : pos ≤ l.length ∧ l.length + 1 ≤ M := hop
    unfold exec demand apply failed
    dsimp only
    rw [emplace_ext, inserted_length _ _ h0]
    exact insertAll_ok ha i h0 (by simp) h1
  | emplaceBack x =>
    have h1 : l.length + 1 ≤ M := hop
    unfold exec demand apply failed
    dsimp only
    rw [emplace_ext, hsz, ← inserted_end, inserted_length _ _ (Nat.le_refl _)]
    exact insertAll_ok ha i (Nat.le_refl _) (by simp) h1
  | popBack =>
    obtain ⟨m, e1, e2⟩ := popBack_ok i hop
    unfold exec demand apply failed
    dsimp only
    rw [e1, ok_bind]
    exact ⟨_, _, _, rfl, e2, rfl, fun _ _ => rfl, fun _ => ⟨rfl, rfl, rfl, rfl⟩, fun _ _ => ⟨rfl, rfl⟩⟩
  | erase first last =>
    obtain ⟨h1, h2⟩ : first ≤ last ∧ last ≤ l.length := hop
    obtain ⟨m, e1, e2⟩ := erase_ok i h1 h2
    unfold exec demand apply failed
    dsimp only
    rw [e1, ok_bind]
    exact ⟨_, _, _, rfl, e2, rfl, fun _ _ => rfl, fun _ => ⟨rfl, rfl, rfl, rfl⟩, fun _ _ => ⟨rfl, rfl⟩⟩
  | clear =>
    unfold exec demand apply failed
    exact clear_good i
  | resize count s =>
    obtain ⟨h1, h2⟩ : s.Exists l ∧ count ≤ M := hop
    unfold exec demand apply failed resize
    dsimp only
    by_cases ha1 : v.sz = count
    · rw [if_pos ha1]
      refine ⟨_, _, _, rfl, ?_, rfl, fun _ _ => rfl, fun _ => ⟨rfl, rfl, rfl, rfl⟩, fun _ _ => ⟨rfl, rfl⟩⟩
      rw [if_pos rfl, List.take_of_length_le (by omega), show count - l.length = 0 from by omega, List.replicate_zero, List.append_nil]
      exact i
    · rw [if_neg ha1]
      by_cases ha2 : v.sz > count
      · rw [if_pos ha2, hsz]
        obtain ⟨m, e1, e2⟩ := erase_ok i (show count ≤ l.length by omega) (Nat.le_refl _)
        rw [e1, ok_bind]
        have hd : decide ((l.length - (l.length - count)) ≠ l.length) = true := decide_eq_true (by omega)
        dsimp only
        rw [hd]
        refine ⟨_, _, _, rfl, ?_, rfl, fun _ _ => rfl, fun _ => ⟨rfl, rfl, rfl, rfl⟩, fun _ _ => ⟨rfl, rfl⟩⟩
        rw [if_pos rfl, show count - l.length = 0 from by omega, List.replicate_zero]
        rw [List.drop_length] at e2
        exact e2
      · rw [if_neg ha2, hsz]
        obtain ⟨h', v', ok, e1, e2, e3, e4, e5⟩ := insertN_ok ha i (Nat.le_refl _) h1 (show 1 ≤ count - l.length by omega) (by omega)
        rw [e1, ok_bind]
        dsimp only
        rw [inserted_end] at e2
        rw [List.take_of_length_le (by omega), List.length_append, List.length_replicate]
        cases ok with
        | true =>
          have hd : decide (v'.sz ≠ l.length) = true := decide_eq_true (by
            rw [e2.size, if_pos rfl, List.length_append, List.length_replicate]
            omega)
          rw [hd]
          exact ⟨_, _, _, rfl, e2, e3, e4, e5⟩
        | false =>
          have hd : decide (v'.sz ≠ l.length) = false := decide_eq_false (by
            rw [e2.size, if_neg (by simp)]
            simp)
          rw [hd]
          exact ⟨_, _, _, rfl, e2, e3, e4, e5⟩
  | reserve count =>
    have h1 : count ≤ M := hop
    unfold exec demand apply failed reserve
    dsimp only
    by_cases hc : v.cap ≥ count
    · rw [if_pos hc]
      exact ⟨_, _, _, rfl, i, rfl, fun _ _ => rfl, fun _ => ⟨rfl, rfl, rfl, rfl⟩, fun _ _ => ⟨rfl, rfl⟩⟩
    · rw [if_neg hc]
      have hle := i.le
      obtain ⟨h', v', ok, e1, e2, e3, e4, e5, e6, e7, e8⟩ := growBy_ok ha i (amount := count - v.cap) (by omega) (by omega)
      exact ⟨h', v', ok, e1, by rw [ite_self]; exact e2, e3, e6, fun hx => absurd hx hc, fun h0 _ => ⟨by rw [(e8 h0).2], by rw [(e8 h0).2]⟩⟩
  | assignN n s =>
    obtain ⟨h1, h2, h3⟩ : 1 ≤ n ∧ s.Exists l ∧ n ≤ M := hop
    unfold exec demand apply failed
    dsimp only
    rw [List.length_replicate]
    exact assignN_ok ha i h1 h2 h3
  | assignRange r =>
    unfold exec demand apply failed
    exact assignRange_ok ha i hop

theorem make_ok {c : Cfg} {M : Nat} {h : Heap} (ha : Addressable c M) (hh : h.Ok) : ∃ v, make (α := α) c = .ok v ∧ Inv c M h.live h v [] ∧ v.cap = c.n := by
  obtain ⟨h1, h2, h3⟩ := ha
  unfold make
  rw [assert_ok (show c.n ≤ maxCount by unfold maxCount; omega), ok_bind]
  refine ⟨_, rfl, ⟨rfl, ⟨nofun, fun _ _ _ => rfl⟩, Nat.zero_le _, Nat.le_refl _, by show c.n ≤ _; omega, ?_, hh, ?_⟩, rfl⟩
  · unfold Place
    dsimp only
    by_cases h0 : c.n = 0
    · rw [if_pos h0]
      exact ⟨h0, by rw [h0]; rfl⟩
    · rw [if_neg h0]
      exact ⟨decide_eq_true (by omega), by omega, rfl⟩
  · unfold blocks
    dsimp only
    by_cases h0 : c.n = 0
    · rw [if_pos h0]
      exact List.Perm.refl _
    · rw [if_neg h0]
      exact List.Perm.refl _

theorem reached_inv {c : Cfg} {M : Nat} {h0 h : Heap} {v : Vec α} {l : List (Option α)} (ha : Addressable c M) (hh : h0.Ok) (r : Reached c M h0 h v l) :
    Inv c M h0.live h v l := by
  induction r with
  | make e =>
    obtain ⟨v', e1, e2, _⟩ := make_ok (α := α) ha hh
    rw [e] at e1
    injection e1 with e1
    rw [e1]
    exact e2
  | step _ hs e ih =>
    obtain ⟨h', v', ok, e1, e2, _⟩ := exec_ok ha ih hs
    rw [e] at e1
    injection e1 with e1
    injection e1 with a1 a2
    injection a2 with a2 a3
    subst a1 a2 a3
    exact e2

end Tm.Vec
