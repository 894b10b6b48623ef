import Verif.File.PathLemmas

/-! What the functions about the program and the listing of directories do, step by step. -/

namespace Tm.File

/-! ## The program -/

theorem readlink_spec (n : Nat) (w : World) : Around w (readlink n w).2 ∧ (readlink n w).2.blocks = w.blocks ∧
    (((readlink n w).1 = none ∧ w.event.fail = true ∧ (w.event.err ≠ 0 → (readlink n w).2.errno ≠ 0)) ∨ ((readlink n w).1 = some (w.exe.take n) ∧ w.event.fail = false)) := by
  obtain ⟨a1, a2, _⟩ := plain_around w (fun t => .ok (w.exe.take n, t)) (by
    intro t a t' h
    injection h with h
    injection h with _ h
    exact h.symm)
  refine ⟨a1, a2, ?_⟩
  rcases plain_cases w (fun t => .ok (w.exe.take n, t)) with ⟨e, h1, _, h3, h4 | h4⟩ | ⟨a, t, h1, _, _, h4, h5⟩
  · refine Or.inl ⟨h1, h4.1, fun he => ?_⟩
    rw [readlink, h3, h4.2, if_neg he]
    exact he
  · cases h4.2
  · injection h5 with h5
    injection h5 with h5 _
    exact Or.inr ⟨by rw [h5]; exact h1, h4⟩

/-- How the reading of the link ends. -/
structure LinkEnd (w : World) (bs : List Nat) (l : Link) (w' : World) : Prop where
  around : Around w w'
  blocks : w'.blocks = l.block.toList ++ bs
  text : ∀ t, l.text = some t → l.ec = 0 → t = w.exe ∧ t.length < l.cells.length ∧ l.cells.take t.length = t
  ec : (l.text = none → l.block ≠ none ∧ l.lastError ≠ 0) ∧ (l.ec ≠ 0 → l.block ≠ none)
  quiet : Quiet w → l.text ≠ none ∧ l.ec = 0

theorem linkLoop_spec {bs : List Nat} : ∀ (fuel b : Nat) (cells : List Byte) (w : World), w.blocks = b :: bs → Honest w → 0 < cells.length → 0 < fuel → w.exe.length + 1 < fuel + cells.length →
    ∃ l w', linkLoop fuel b cells w = .ok (l, w') ∧ LinkEnd w bs l w'
  | 0, _, _, _, _, _, _, h, _ => absurd h (Nat.not_lt_zero _)
  | fuel + 1, b, cells, w, hb, hh, hpos, _, hfuel => by
    rw [linkLoop]
    obtain ⟨a1, a2, a3⟩ := readlink_spec cells.length w
    generalize readlink cells.length w = g at a1 a2 a3 ⊢
    obtain ⟨o, w1⟩ := g
    dsimp only at a1 a2 a3 ⊢
    rcases a3 with ⟨h1, h2, h3⟩ | ⟨h1, h2⟩
    · subst h1
      have he : w.event.err ≠ 0 := by
        rcases event_mem w with h | h
        · rw [h] at h2; cases h2
        · exact (hh _ h h2).1
      exact ⟨_, _, rfl, a1, by rw [a2, hb]; rfl, fun t ht => (by cases ht), ⟨fun _ => ⟨by simp, h3 he⟩, fun h => absurd rfl h⟩, fun hq => absurd hq.event.2.1 (by rw [h2]; simp)⟩
    · subst h1
      dsimp only
      obtain ⟨cells2, e2, c1, c2⟩ := copyAt_ok (cells := cells) (src := w.exe.take cells.length) (pos := 0) (by simp; omega)
      rw [e2, ok_bind]
      simp only [Nat.zero_add, List.take_zero, List.nil_append] at c2
      by_cases h : (w.exe.take cells.length).length ≥ cells2.length
      · rw [if_pos h]
        try dsimp only
        rcases realloc_around (w := w1) (b := b) (bs := bs) (by rw [a2, hb]) with ⟨w2, e3, r1, r2, r3, r4⟩ | ⟨w2, e3, r1, r2, r3⟩
        · rw [e3, ok_bind]
          dsimp only
          have hl : (resize w2.junk cells2 (cells2.length * 2)).length = cells2.length * 2 := resize_length
          rw [List.length_take] at h
          have hx : w2.exe = w.exe := by rw [r1.exe, a1.exe]
          obtain ⟨l, w', k1, k2⟩ := linkLoop_spec fuel w1.next (resize w2.junk cells2 (cells2.length * 2)) w2 r2
            (hh.drop (a1.trans r1).plan) (by rw [hl]; omega) (by omega) (by rw [hl, hx]; omega)
          exact ⟨l, w', k1, (a1.trans r1).trans k2.around, k2.blocks, fun t h1 h2 => hx ▸ k2.text t h1 h2, k2.ec, fun hq => k2.quiet (hq.around (a1.trans r1))⟩
        · rw [e3, ok_bind]
          exact ⟨_, _, rfl, a1.trans r1, r2, fun t _ h => absurd h (show ENOMEM ≠ 0 by decide), ⟨fun h => (by cases h), fun _ => by simp⟩, fun hq => absurd r3 (hq.around a1).no_false⟩
      · rw [if_neg h]
        have hlt : w.exe.length < cells.length := by
          rw [List.length_take] at h
          omega
        have ht : w.exe.take cells.length = w.exe := List.take_of_length_le (by omega)
        refine ⟨_, _, rfl, a1, by rw [a2, hb]; rfl, fun t h1 _ => ?_, ⟨fun h => (by cases h), fun h => absurd rfl h⟩, fun _ => ⟨by simp, rfl⟩⟩
        injection h1 with h1
        subst h1
        rw [ht] at c2 ⊢
        exact ⟨rfl, by dsimp only; omega, c2⟩

theorem linkGet_spec (w : World) (hh : Honest w) (hf : w.event.fail = false) : ∃ b l w', linkGet w = .ok (b, l, w') ∧ Around w w' ∧
    ((b = true ∧ l.ec = ENOMEM ∧ w'.blocks = w.blocks ∧ false ∈ w.allocs) ∨ (b = false ∧ LinkEnd w w.blocks l w')) := by
  rw [linkGet]
  obtain ⟨a1, a2, a3⟩ := readlink_spec 260 w
  generalize readlink 260 w = g at a1 a2 a3 ⊢
  obtain ⟨o, w1⟩ := g
  dsimp only at a1 a2 a3 ⊢
  rcases a3 with ⟨h1, h2, h3⟩ | ⟨h1, h2⟩
  · rw [hf] at h2; cases h2
  · subst h1
    dsimp only
    obtain ⟨cells2, e2, c1, c2⟩ := copyAt_ok (cells := List.replicate 260 w1.junk) (src := w.exe.take 260) (pos := 0) (by rw [List.length_take, List.length_replicate]; omega)
    rw [e2, ok_bind]
    simp only [Nat.zero_add, List.take_zero, List.nil_append] at c2
    rw [List.length_replicate] at c1
    by_cases h : (w.exe.take 260).length ≥ 260
    · rw [if_pos h]
      rcases malloc_around w1 with ⟨w2, e3, r1, r2, r3, r4⟩ | ⟨w2, e3, r1, r2, r3⟩
      · rw [e3]
        dsimp only
        have hx : w2.exe = w.exe := by rw [r1.exe, a1.exe]
        obtain ⟨l, w', k1, k2⟩ := linkLoop_spec (bs := w.blocks) (w2.exe.length + 1) w1.next (List.replicate 520 w2.junk) w2 (by rw [r2, a2]) (hh.drop (a1.trans r1).plan) (by rw [List.length_replicate]; omega) (by omega)
          (by rw [List.length_replicate]; omega)
        rw [k1, ok_bind]
        exact ⟨_, _, _, rfl, (a1.trans r1).trans k2.around, Or.inr ⟨rfl, (a1.trans r1).trans k2.around, k2.blocks, fun t h1 h2 => hx ▸ k2.text t h1 h2, k2.ec, fun hq => k2.quiet (hq.around (a1.trans r1))⟩⟩
      · rw [e3]
        refine ⟨_, _, _, rfl, a1.trans r1, Or.inl ⟨rfl, rfl, by rw [r2, a2], ?_⟩⟩
        exact a1.allocs _ r3
    · rw [if_neg h]
      have hlt : w.exe.length < 260 := by
        rw [List.length_take] at h
        omega
      have ht : w.exe.take 260 = w.exe := List.take_of_length_le (by omega)
      refine ⟨_, _, _, rfl, a1, Or.inr ⟨rfl, a1, by rw [a2]; rfl, fun t h1 _ => ?_, ⟨fun h => (by cases h), fun h => absurd rfl h⟩, fun _ => ⟨by simp, rfl⟩⟩⟩
      injection h1 with h1
      subst h1
      rw [ht] at c2 ⊢
      exact ⟨rfl, by dsimp only; omega, c2⟩

theorem moduleFilename_spec (w : World) (hh : Honest w) (hf : w.event.fail = false) : ∃ r w', moduleFilename w = .ok (r, w') ∧ Gives w w.blocks r.contents w' ∧
    (r.ec = 0 → r.contents.block ≠ none ∧ r.contents.cells.take r.contents.size = w.exe ∧ r.contents.size = w.exe.length ∧ r.contents.cells[r.contents.size]? = some 0) ∧
    (r.ec ≠ 0 → r.contents = noContents) ∧ (Quiet w → r.ec = 0) := by
  rw [moduleFilename]
  obtain ⟨b, l, w1, e1, a1, a2⟩ := linkGet_spec w hh hf
  rw [e1, ok_bind]
  dsimp only
  rcases a2 with ⟨h1, h2, h3, h4⟩ | ⟨h1, h2⟩
  · rw [if_pos h1]
    exact ⟨_, _, rfl, ⟨a1, h3, fun h => absurd rfl h⟩, fun h => absurd (h2.symm.trans h) (by decide), fun _ => rfl, fun hq => absurd h4 hq.no_false⟩
  · rw [if_neg (by rw [h1]; simp), linkEnd]
    try dsimp only
    cases ht : l.text with
    | none =>
      obtain ⟨g1, g2⟩ := h2.ec.1 ht
      rw [if_pos rfl]
      obtain ⟨bb, hbb⟩ : ∃ b, l.block = some b := by
        cases h : l.block with
        | none => exact absurd h g1
        | some b => exact ⟨b, rfl⟩
      have hfree : freeAny l.block w1 = .ok { w1 with blocks := w.blocks } := by
        rw [hbb, freeAny]
        exact free_head (by rw [h2.blocks, hbb]; rfl)
      rw [if_neg g2, hfree, ok_bind]
      exact ⟨_, _, rfl, ⟨a1.trans ⟨rfl, rfl, rfl, rfl, Nat.le_refl _, ⟨0, by rw [List.drop_zero]⟩, fun _ => rfl, fun _ h => h⟩, rfl, fun h => absurd rfl h⟩, fun h => absurd h g2, fun _ => rfl, fun hq => absurd ht (h2.quiet hq).1⟩
    | some t =>
      rw [if_neg (show ¬ (some t = none) by simp)]
      by_cases he : l.ec = 0
      · rw [if_pos he]
        dsimp only
        obtain ⟨g1, g2, g3⟩ := h2.text t ht he
        cases hb : l.block with
        | none =>
          dsimp only
          have hbl : w1.blocks = w.blocks := by rw [h2.blocks, hb]; rfl
          rcases malloc_around w1 with ⟨w2, e3, r1, r2, r3, r4⟩ | ⟨w2, e3, r1, r2, r3⟩
          · rw [e3]
            dsimp only
            obtain ⟨cells2, e2, c1, c2⟩ := copyAt_ok (cells := List.replicate (t.length + 1) w2.junk) (src := l.cells.take t.length) (pos := 0) (by simp; omega)
            rw [e2, ok_bind]
            rw [g3] at c2
            rw [List.length_replicate] at c1
            simp only [Nat.zero_add, List.take_zero, List.nil_append] at c2
            rw [wr, if_pos (by omega), ok_bind]
            refine ⟨_, _, rfl, ⟨a1.trans r1, by rw [r2, hbl]; rfl, fun _ => by dsimp only; rw [List.length_set]; omega⟩, fun _ => ⟨by simp, ?_, by rw [g1], ?_⟩, fun h => absurd rfl h, fun _ => rfl⟩
            · dsimp only
              rw [List.take_set, List.set_eq_of_length_le (by simp; omega), c2, g1]
            · dsimp only
              rw [List.getElem?_set_self (by omega)]
          · rw [e3]
            exact ⟨_, _, rfl, ⟨a1.trans r1, by rw [r2, hbl]; rfl, fun h => absurd rfl h⟩, fun h => absurd h (by decide), fun _ => rfl, fun hq => absurd (a1.allocs _ r3) hq.no_false⟩
        | some b =>
          dsimp only
          rw [assert, if_pos (by simpa using g2), ok_bind, wr, if_pos g2, ok_bind]
          refine ⟨_, _, rfl, ⟨a1, by rw [h2.blocks, hb], fun _ => by dsimp only; rw [List.length_set]; omega⟩, fun _ => ⟨by simp, ?_, by rw [g1], ?_⟩, fun h => absurd rfl h, fun _ => rfl⟩
          · dsimp only
            rw [List.take_set, List.set_eq_of_length_le (by simp; omega), g3, g1]
          · dsimp only
            rw [List.getElem?_set_self g2]
      · obtain ⟨bb, hbb⟩ : ∃ b, l.block = some b := by
          cases h : l.block with
          | none => exact absurd h (h2.ec.2 he)
          | some b => exact ⟨b, rfl⟩
        have hfree : freeAny l.block w1 = .ok { w1 with blocks := w.blocks } := by
          rw [hbb, freeAny]
          exact free_head (by rw [h2.blocks, hbb]; rfl)
        rw [if_neg he, hfree, ok_bind]
        exact ⟨_, _, rfl, ⟨a1.trans ⟨rfl, rfl, rfl, rfl, Nat.le_refl _, ⟨0, by rw [List.drop_zero]⟩, fun _ => rfl, fun _ h => h⟩, rfl, fun h => absurd rfl h⟩, fun h => absurd h he, fun _ => rfl, fun hq => absurd (h2.quiet hq).2 he⟩

theorem dirLoop_spec (cells : List Byte) : ∀ n, n ≤ cells.length → ∃ k, dirLoop cells n = .ok k ∧ k ≤ n ∧ (∀ i, k ≤ i → i < n → cells[i]? ≠ some slash) ∧ (k = 0 ∨ cells[k - 1]? = some slash)
  | 0, _ => ⟨0, rfl, Nat.le_refl _, fun i h1 h2 => by omega, Or.inl rfl⟩
  | n + 1, h => by
    rw [dirLoop, rd, List.getElem?_eq_getElem (by omega)]
    dsimp only
    rw [ok_bind]
    by_cases hs : cells[n] ≠ slash
    · rw [if_pos hs]
      obtain ⟨k, h1, h2, h3, h4⟩ := dirLoop_spec cells n (by omega)
      refine ⟨k, h1, by omega, fun i g1 g2 => ?_, h4⟩
      by_cases hi : i = n
      · subst hi
        rw [List.getElem?_eq_getElem (by omega)]
        simpa using hs
      · exact h3 i g1 (by omega)
    · rw [if_neg hs]
      refine ⟨n + 1, rfl, Nat.le_refl _, fun i h1 h2 => by omega, Or.inr ?_⟩
      rw [Nat.add_sub_cancel, List.getElem?_eq_getElem (by omega)]
      simpa using hs

theorem moduleDirectory_spec (w : World) (hh : Honest w) (hf : w.event.fail = false) : ∃ r w', moduleDirectory w = .ok (r, w') ∧ Gives w w.blocks r.contents w' ∧
    (r.ec = 0 → ∃ rest, w.exe = r.contents.cells.take r.contents.size ++ rest ∧ slash ∉ rest ∧ (r.contents.size = 0 ∨ (r.contents.cells.take r.contents.size).getLast? = some slash) ∧
      r.contents.cells[r.contents.size]? = some 0) ∧
    (r.ec ≠ 0 → r.contents = noContents) ∧ (Quiet w → r.ec = 0) := by
  rw [moduleDirectory]
  obtain ⟨r, w1, e1, a1, a2, a3, a4⟩ := moduleFilename_spec w hh hf
  rw [e1, ok_bind]
  dsimp only
  by_cases h : r.ec = 0
  · rw [if_pos h]
    obtain ⟨b1, b2, b3, b4⟩ := a2 h
    obtain ⟨c1, c2⟩ := a1.cells b1
    obtain ⟨k, e2, d1, d2, d3⟩ := dirLoop_spec r.contents.cells r.contents.size c2
    have hlt : r.contents.size < r.contents.cells.length := by
      by_cases hx : r.contents.size < r.contents.cells.length
      · exact hx
      · rw [List.getElem?_eq_none (by omega)] at b4; cases b4
    have hi : r.contents.block.isSome = true := by
      cases hb : r.contents.block with
      | none => exact absurd hb b1
      | some _ => rfl
    rw [e2, ok_bind, if_pos hi, wr, if_pos (by omega), ok_bind]
    have htake : (r.contents.cells.set k 0).take k = r.contents.cells.take k := by rw [List.take_set, List.set_eq_of_length_le (by simp; omega)]
    refine ⟨_, _, rfl, ⟨a1.around, a1.blocks, fun _ => by dsimp only; rw [List.length_set]; omega⟩, fun _ => ⟨w.exe.drop k, ?_, ?_, ?_, ?_⟩, fun hx => absurd h hx, fun _ => h⟩
    · dsimp only
      rw [htake]
      have : r.contents.cells.take k = w.exe.take k := by rw [← b2, List.take_take, Nat.min_eq_left d1]
      rw [this, List.take_append_drop]
    · intro hm
      obtain ⟨i, hi1, hi2⟩ := List.getElem_of_mem hm
      rw [List.length_drop] at hi1
      rw [List.getElem_drop] at hi2
      have := d2 (k + i) (by omega) (by omega)
      apply this
      rw [← List.getElem?_take_of_lt (j := r.contents.size) (by omega), b2, List.getElem?_eq_getElem (by omega), hi2]
    · dsimp only
      rw [htake]
      rcases d3 with d3 | d3
      · exact Or.inl d3
      · by_cases hk : k = 0
        · exact Or.inl hk
        · refine Or.inr ?_
          rw [List.getLast?_eq_getElem?, List.length_take, Nat.min_eq_left (by omega), List.getElem?_take_of_lt (by omega), d3]
    · dsimp only
      rw [List.getElem?_set_self (by omega)]
  · rw [if_neg h]
    exact ⟨r, w1, rfl, a1, fun hx => absurd hx h, a3, a4⟩

/-! ## Listing -/

/-- The directory a program lists was the last one opened. -/
structure Lists (ds : List (Nat × List Entry)) (h : Nat) (es : List Entry) (w : World) : Prop where
  dirs : w.dirs = (h, es) :: ds
  other : ∀ x ∈ ds, x.1 ≠ h

/-- What listing leaves alone. -/
structure Looks (w w' : World) : Prop where
  streams : w'.streams = w.streams
  blocks : w'.blocks = w.blocks
  plan : ∃ n, w'.plan = w.plan.drop n
  tree : Alone w → w'.tree = w.tree

theorem Looks.trans {a b c : World} (h : Looks a b) (g : Looks b c) : Looks a c := by
  refine ⟨g.1.trans h.1, g.2.trans h.2, ?_, fun ha => (g.tree (ha.drop h.plan)).trans (h.tree ha)⟩
  obtain ⟨m, hm⟩ := h.plan
  obtain ⟨n, hn⟩ := g.plan
  exact ⟨m + n, by rw [hn, hm, List.drop_drop]⟩

theorem readdir_spec {ds : List (Nat × List Entry)} {h : Nat} {es : List Entry} {w : World} (hl : Lists ds h es w) : ∃ o w', readdir h w = .ok (o, w') ∧ Looks w w' ∧
    ((o = none ∧ Lists ds h es w' ∧ ((w.event.fail = true ∧ (w.event.err ≠ 0 → w'.errno ≠ 0)) ∨ (es = [] ∧ w'.errno = w.errno ∧ w.event.fail = false))) ∨
     (∃ e es', es = e :: es' ∧ o = some e ∧ Lists ds h es' w')) := by
  have hfind : (w.dirs.find? fun x => x.1 == h) = some (h, es) := by rw [hl.dirs]; simp
  have hp : ∃ n, w.plan.tail = w.plan.drop n := ⟨1, by rw [List.drop_one]⟩
  rw [readdir, hfind]
  dsimp only
  by_cases hf : w.event.fail = true
  · rw [if_pos hf]
    refine ⟨_, _, rfl, ⟨rfl, rfl, hp, fun ha => ha.others⟩, Or.inl ⟨rfl, ⟨hl.dirs, hl.other⟩, Or.inl ⟨hf, fun he => ?_⟩⟩⟩
    show (if w.event.err = 0 then w.errno else w.event.err) ≠ 0
    rw [if_neg he]
    exact he
  · rw [if_neg hf]
    cases es with
    | nil => exact ⟨_, _, rfl, ⟨rfl, rfl, hp, fun ha => ha.others⟩, Or.inl ⟨rfl, ⟨hl.dirs, hl.other⟩, Or.inr ⟨rfl, rfl, by simpa using hf⟩⟩⟩
    | cons e es' =>
      refine ⟨_, _, rfl, ⟨rfl, rfl, hp, fun ha => ha.others⟩, Or.inr ⟨e, es', rfl, rfl, ?_, hl.other⟩⟩
      show (w.dirs.map fun (y : Nat × List Entry) => if y.1 = h then (h, es') else y) = (h, es') :: ds
      rw [hl.dirs, List.map_cons, if_pos rfl]
      congr 1
      conv => rhs; rw [← List.map_id ds]
      apply List.map_congr_left
      intro x hx
      rw [if_neg (hl.other x hx)]
      rfl

theorem readLoop_spec {ds : List (Nat × List Entry)} {h : Nat} : ∀ (fuel : Nat) (es : List Entry) (w : World), Lists ds h es w → es.length < fuel →
    ∃ r w', readLoop fuel h w = .ok (r, w') ∧ Looks w w' ∧
      ((∃ e skipped es', r = .inl e ∧ es = skipped ++ e :: es' ∧ (∀ x ∈ skipped, x.name = [0x2E] ∨ x.name = [0x2E, 0x2E]) ∧ ¬ (e.name = [0x2E] ∨ e.name = [0x2E, 0x2E]) ∧ Lists ds h es' w') ∨
       (∃ ec es', r = .inr ec ∧ Lists ds h es' w' ∧ (Honest w → ec = 0 → ∀ x ∈ es, x.name = [0x2E] ∨ x.name = [0x2E, 0x2E]) ∧ (NoFail w → ec = 0)))
  | 0, _, _, _, h => absurd h (Nat.not_lt_zero _)
  | fuel + 1, es, w, hl, hfuel => by
    rw [readLoop]
    obtain ⟨o, w1, e1, a1, a2⟩ := readdir_spec (w := { w with errno := 0 }) ⟨hl.dirs, hl.other⟩
    have a1' : Looks w w1 := ⟨a1.streams, a1.blocks, a1.plan, a1.tree⟩
    rw [e1, ok_bind]
    dsimp only
    rcases a2 with ⟨h1, h2, h3⟩ | ⟨e, es', h1, h2, h3⟩
    · subst h1
      refine ⟨_, _, rfl, a1', Or.inr ⟨_, es, rfl, h2, fun hh h0 => ?_, fun hn => ?_⟩⟩
      · rcases h3 with ⟨h3, h4⟩ | ⟨h3, _⟩
        · exact absurd h0 (h4 (Honest.event (w := w) hh h3).1)
        · rw [h3]
          intro x hx
          cases hx
      · rcases h3 with ⟨h3, _⟩ | ⟨_, h3, _⟩
        · have := hn.event
          rw [show w.event = ({ w with errno := 0 } : World).event from rfl, h3] at this
          cases this
        · exact h3
    · subst h1 h2
      dsimp only
      by_cases hd : e.name = [0x2E] ∨ e.name = [0x2E, 0x2E]
      · rw [if_pos hd]
        obtain ⟨r, w', k1, k2, k3⟩ := readLoop_spec fuel es' w1 h3 (by rw [List.length_cons] at hfuel; omega)
        refine ⟨r, w', k1, a1'.trans k2, ?_⟩
        rcases k3 with ⟨x, sk, es2, g1, g2, g3, g4, g5⟩ | ⟨ec, es2, g1, g2, g3, g4⟩
        · refine Or.inl ⟨x, e :: sk, es2, g1, by rw [g2]; rfl, ?_, g4, g5⟩
          intro y hy
          rcases List.mem_cons.1 hy with rfl | hy
          · exact hd
          · exact g3 y hy
        · refine Or.inr ⟨ec, es2, g1, g2, fun hh h0 x hx => ?_, fun hn => g4 (hn.drop a1'.plan)⟩
          rcases List.mem_cons.1 hx with rfl | hx
          · exact hd
          · exact g3 (hh.drop a1'.plan) h0 x hx
      · rw [if_neg hd]
        exact ⟨_, _, rfl, a1', Or.inl ⟨e, [], es', rfl, rfl, (fun x hx => by cases hx), hd, h3⟩⟩

end Tm.File
