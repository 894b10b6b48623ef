import Verif.File.WriteLemmas

/-! What the functions about the current directory, the program and the listing of directories do, step by step. -/

namespace Tm.File

/-- What a function that changes no file leaves alone. -/
structure Around (w w' : World) : Prop where
  streams : w'.streams = w.streams
  dirs : w'.dirs = w.dirs
  cwd : w'.cwd = w.cwd
  exe : w'.exe = w.exe
  next : w.next ≤ w'.next
  plan : ∃ n, w'.plan = w.plan.drop n
  tree : Alone w → w'.tree = w.tree
  allocs : ∀ a ∈ w'.allocs, a ∈ w.allocs

theorem Around.rfl {w : World} : Around w w := ⟨Eq.refl _, Eq.refl _, Eq.refl _, Eq.refl _, Nat.le_refl _, ⟨0, by rw [List.drop_zero]⟩, fun _ => Eq.refl _, fun _ h => h⟩

theorem Around.trans {a b c : World} (h : Around a b) (g : Around b c) : Around a c := by
  refine ⟨g.1.trans h.1, g.2.trans h.2, g.3.trans h.3, g.4.trans h.4, Nat.le_trans h.5 g.5, ?_, fun ha => (g.tree (ha.drop h.plan)).trans (h.tree ha), fun x hx => h.allocs x (g.allocs x hx)⟩
  obtain ⟨m, hm⟩ := h.plan
  obtain ⟨n, hn⟩ := g.plan
  exact ⟨m + n, by rw [hn, hm, List.drop_drop]⟩

theorem Quiet.around {w w' : World} (h : Quiet w) (g : Around w w') : Quiet w' := h.drop g.plan g.allocs

/-- A call that looks at something. -/
theorem plain_around {α : Type} (w : World) (f : Tree → Except Errno (α × Tree)) (hf : ∀ t a t', f t = .ok (a, t') → t' = t) : Around w (w.plain f).2 ∧ (w.plain f).2.blocks = w.blocks ∧
    (w.plain f).2.next = w.next ∧ (w.plain f).2.junk = w.junk ∧ (w.plain f).2.allocs = w.allocs := by
  obtain ⟨h1, h2⟩ := plain_same w f
  refine ⟨⟨h1.streams, h1.dirs, h1.cwd, h1.exe, Nat.le_of_eq h1.next.symm, ⟨1, by rw [h2, List.drop_one]⟩, fun ha => ?_, fun a hx => h1.allocs ▸ hx⟩, h1.blocks, h1.next, h1.junk, h1.allocs⟩
  rcases plain_cases w f with ⟨e, _, h, _⟩ | ⟨a, t, _, h, _, _, h3⟩
  · rw [h, ha.others]
  · rw [h, hf _ _ _ h3, ha.others]

theorem malloc_around (w : World) : (∃ w', malloc w = (some w.next, w') ∧ Around w w' ∧ w'.blocks = w.next :: w.blocks ∧ w'.next = w.next + 1 ∧ w'.plan = w.plan) ∨
    (∃ w', malloc w = (none, w') ∧ Around w w' ∧ w'.blocks = w.blocks ∧ false ∈ w.allocs) := by
  rcases malloc_cases w with ⟨w2, e2, m1, m2, m3, m4, m5, m6, m7, m8, m9, m10, m11⟩ | ⟨w2, e2, m1, m2, m3, m4, m5, m6, m7, m8, m9, m10, m11, m12⟩
  · exact Or.inl ⟨w2, e2, ⟨m3, m4, m8, m11, by omega, ⟨0, by rw [m6, List.drop_zero]⟩, fun _ => m7, fun a ha => List.mem_of_mem_tail (m10 ▸ ha)⟩, m1, m2, m6⟩
  · exact Or.inr ⟨w2, e2, ⟨m3, m4, m8, m11, by omega, ⟨0, by rw [m6, List.drop_zero]⟩, fun _ => m7, fun a ha => List.mem_of_mem_tail (m10 ▸ ha)⟩, m1, m12⟩

theorem realloc_around {w : World} {b : Nat} {bs : List Nat} (hb : w.blocks = b :: bs) :
    (∃ w', realloc b w = .ok (some w.next, w') ∧ Around w w' ∧ w'.blocks = w.next :: bs ∧ w'.next = w.next + 1 ∧ w'.plan = w.plan) ∨
    (∃ w', realloc b w = .ok (none, w') ∧ Around w w' ∧ w'.blocks = b :: bs ∧ false ∈ w.allocs) := by
  rcases realloc_cases hb with ⟨w2, e2, m1, m2, m3, m4, m5, m6, m7, m8, m9, m10, m11⟩ | ⟨w2, e2, m1, m2, m3, m4, m5, m6, m7, m8, m9, m10, m11, m12⟩
  · exact Or.inl ⟨w2, e2, ⟨m3, m4, m8, m11, by omega, ⟨0, by rw [m6, List.drop_zero]⟩, fun _ => m7, fun a ha => List.mem_of_mem_tail (m10 ▸ ha)⟩, m1, m2, m6⟩
  · exact Or.inr ⟨w2, e2, ⟨m3, m4, m8, m11, by omega, ⟨0, by rw [m6, List.drop_zero]⟩, fun _ => m7, fun a ha => List.mem_of_mem_tail (m10 ▸ ha)⟩, m1, m12⟩

theorem Quiet.no_false {w : World} (h : Quiet w) : false ∉ w.allocs := fun hx => by cases h.allocs _ hx

theorem errnoOrIo_pos (w : World) : errnoOrIo w ≠ 0 := by
  rw [errnoOrIo]
  split
  · assumption
  · decide

/-! ## The current directory -/

/-- What a function that returns contents has done. -/
structure Gives (w : World) (bs : List Nat) (c : Contents) (w' : World) : Prop where
  around : Around w w'
  blocks : w'.blocks = c.block.toList ++ bs
  cells : c.block ≠ none → 0 < c.cells.length ∧ c.size ≤ c.cells.length

theorem gives_destroy {w : World} {bs : List Nat} {c : Contents} {w' : World} (h : Gives w bs c w') : ∃ w'', destroyContents c w' = .ok w'' ∧ w''.blocks = bs := by
  cases hb : c.block with
  | none =>
    refine ⟨w', by rw [destroyContents, hb], ?_⟩
    rw [h.blocks, hb]
    rfl
  | some b =>
    have ho : Owns bs c w' := ⟨⟨b, hb, by rw [h.blocks, hb]; rfl⟩, (h.cells (by rw [hb]; simp)).2, (h.cells (by rw [hb]; simp)).1⟩
    exact ⟨_, destroy_spec ho, rfl⟩

theorem cwdLoop_spec {bs : List Nat} : ∀ (fuel : Nat) (c : Contents) (w : World) (b : Nat), c.block = some b → c.size = 0 → w.blocks = b :: bs → 0 < c.cells.length →
    c.cells.length % 200 = 0 → (cwdText w.cwd).length + 1 - c.cells.length + w.plan.length < fuel →
    ∃ r w', cwdLoop fuel c w = .ok (r, w') ∧ Gives w bs r.contents w' ∧
      (r.ec = 0 → r.contents.block ≠ none ∧ r.contents.cells.length % 200 = 0 ∧ (cwdText w.cwd).length + 1 ≤ r.contents.cells.length ∧
        r.contents.cells.take ((cwdText w.cwd).length + 1) = cwdText w.cwd ++ [0]) ∧ (Quiet w → r.ec = 0)
  | 0, _, _, _, _, _, _, _, _, h => absurd h (Nat.not_lt_zero _)
  | fuel + 1, c, w, b, hb, hs, hw, hpos, hmod, hfuel => by
    rw [cwdLoop]
    have hg : getcwd c.cells.length w = w.plain fun t => if (cwdText w.cwd).length + 1 ≤ c.cells.length then .ok (cwdText w.cwd ++ [0], t) else .error ERANGE := rfl
    obtain ⟨a1, a2, a3, _, _⟩ := plain_around w (fun t => if (cwdText w.cwd).length + 1 ≤ c.cells.length then .ok (cwdText w.cwd ++ [0], t) else .error ERANGE) (by
      intro t a t' h
      try dsimp only at h
      split at h
      · injection h with h; injection h with _ h; exact h.symm
      · cases h)
    obtain ⟨_, a4⟩ := plain_same w (fun t => if (cwdText w.cwd).length + 1 ≤ c.cells.length then .ok (cwdText w.cwd ++ [0], t) else .error ERANGE)
    have a5 := plain_cases w (fun t => if (cwdText w.cwd).length + 1 ≤ c.cells.length then .ok (cwdText w.cwd ++ [0], t) else .error ERANGE)
    rw [← hg] at a1 a2 a3 a4 a5
    generalize getcwd c.cells.length w = g at a1 a2 a3 a4 a5 ⊢
    obtain ⟨o, w1⟩ := g
    dsimp only at a1 a2 a3 a4 a5 ⊢
    rcases a5 with ⟨e, h1, h2, h3, h4⟩ | ⟨a, t, h1, h2, h3, h4, h5⟩
    · subst h1
      try dsimp only
      by_cases he : w1.errno = ERANGE
      · rw [if_pos he, hb, reallocAny]
        try dsimp only
        have hq1 : Quiet w → c.cells.length < (cwdText w.cwd).length + 1 := by
          intro hq
          rcases h4 with ⟨h4, _⟩ | ⟨_, h4⟩
          · rw [hq.event.2.1] at h4; cases h4
          · split at h4
            · cases h4
            · omega
        rcases realloc_around (w := w1) (b := b) (bs := bs) (by rw [a2, hw]) with ⟨w2, e2, r1, r2, r3, r4⟩ | ⟨w2, e2, r1, r2, r3⟩
        · rw [e2, ok_bind]
          dsimp only
          have hc : (cwdText w2.cwd) = cwdText w.cwd := by rw [r1.cwd, a1.cwd]
          have hl : (resize w2.junk c.cells (c.cells.length + 200)).length = c.cells.length + 200 := resize_length
          have hfuel2 : (cwdText w2.cwd).length + 1 - (resize w2.junk c.cells (c.cells.length + 200)).length + w2.plan.length < fuel := by
            rw [hc, hl, r4, a4, List.length_tail]
            rcases h4 with ⟨h4, _⟩ | ⟨_, h4⟩
            · have : 0 < w.plan.length := by
                cases hp : w.plan with
                | nil => rw [World.event, hp] at h4; cases h4
                | cons x xs => simp
              omega
            · split at h4
              · cases h4
              · omega
          obtain ⟨r, w', k1, k2, k3, k4⟩ := cwdLoop_spec fuel { c with block := some w1.next, cells := resize w2.junk c.cells (c.cells.length + 200) } w2 w1.next rfl hs r2
            (by dsimp only; rw [hl]; omega) (by dsimp only; rw [hl]; omega) hfuel2
          rw [hc] at k3
          exact ⟨r, w', k1, ⟨(a1.trans r1).trans k2.around, k2.blocks, k2.cells⟩, k3, fun hq => k4 (hq.around (a1.trans r1))⟩
        · rw [e2, ok_bind]
          dsimp only
          rw [destroy_spec (bs := bs) ⟨⟨b, hb, r2⟩, by rw [hs]; omega, hpos⟩, ok_bind]
          refine ⟨_, _, rfl, ⟨(a1.trans r1).trans ⟨rfl, rfl, rfl, rfl, Nat.le_refl _, ⟨0, by rw [List.drop_zero]⟩, fun _ => rfl, fun _ h => h⟩, rfl, fun h => absurd rfl h⟩, fun h => absurd h (by decide), fun hq => absurd r3 (hq.around a1).no_false⟩
      · rw [if_neg he]
        refine ⟨_, _, rfl, ⟨a1, by rw [a2, hw, hb]; rfl, fun _ => ⟨hpos, by dsimp only; rw [hs]; omega⟩⟩, fun h => absurd h (errnoOrIo_pos _), fun hq => ?_⟩
        rcases h4 with ⟨h4, _⟩ | ⟨_, h4⟩
        · rw [hq.event.2.1] at h4; cases h4
        · split at h4
          · cases h4
          · injection h4 with h4
            rw [← h4, if_neg (by decide)] at h3
            exact absurd h3 he
    · subst h1
      dsimp only
      split at h5
      case isFalse => cases h5
      case isTrue h6 =>
        injection h5 with h5
        injection h5 with h5 _
        subst h5
        obtain ⟨cells, e2, c1, c2⟩ := copyAt_ok (cells := c.cells) (src := cwdText w.cwd ++ [0]) (pos := 0) (by simp; omega)
        rw [e2, ok_bind]
        refine ⟨_, _, rfl, ⟨a1, by dsimp only; rw [a2, hw, hb]; rfl, fun _ => ⟨by dsimp only; omega, by dsimp only; rw [hs]; omega⟩⟩, fun _ => ⟨by dsimp only; rw [hb]; simp, by dsimp only; rw [c1]; exact hmod, by dsimp only; rw [c1]; exact h6, ?_⟩, fun _ => rfl⟩
        dsimp only
        simpa using c2

theorem cwdGet_spec (w : World) : ∃ r w', cwdGet w = .ok (r, w') ∧ Gives w w.blocks r.contents w' ∧
      (r.ec = 0 → r.contents.block ≠ none ∧ r.contents.cells.length % 200 = 0 ∧ (cwdText w.cwd).length + 1 ≤ r.contents.cells.length ∧
        r.contents.cells.take ((cwdText w.cwd).length + 1) = cwdText w.cwd ++ [0]) ∧ (Quiet w → r.ec = 0) := by
  rw [cwdGet]
  rcases malloc_around w with ⟨w1, e1, a1, a2, a3, a4⟩ | ⟨w1, e1, a1, a2, a3⟩
  · rw [e1]
    dsimp only
    obtain ⟨r, w', k1, k2, k3, k4⟩ := cwdLoop_spec (bs := w.blocks) ((cwdText w1.cwd).length + w1.plan.length + 1) ⟨some w.next, List.replicate 200 w1.junk, 0⟩ w1 w.next rfl rfl a2
      (by dsimp only; rw [List.length_replicate]; omega) (by dsimp only; rw [List.length_replicate]) (by dsimp only; rw [List.length_replicate]; omega)
    rw [a1.cwd] at k3
    exact ⟨r, w', k1, ⟨a1.trans k2.around, k2.blocks, k2.cells⟩, k3, fun hq => k4 (hq.around a1)⟩
  · rw [e1]
    exact ⟨_, _, rfl, ⟨a1, a2, fun h => absurd rfl h⟩, fun h => absurd h (by decide), fun hq => absurd a3 hq.no_false⟩

theorem strlen_spec {cells text : List Byte} (h0 : 0 ∉ text) (h : cells.take (text.length + 1) = text ++ [0]) : strlen cells = .ok text.length := by
  have hc : cells = text ++ 0 :: cells.drop (text.length + 1) := by
    conv => lhs; rw [← List.take_append_drop (text.length + 1) cells, h]
    simp
  rw [strlen, if_pos (by rw [hc]; simp), hc, List.takeWhile_append_of_pos]
  · simp
  · intro x hx
    have : x ≠ 0 := fun h => h0 (h ▸ hx)
    simpa using this

theorem toTmuPath_spec {c : Contents} {text : List Byte} (hb : c.block ≠ none) (hs : c.size = text.length) (ht : c.cells.take text.length = text) (hn : text ≠ [])
    (hl : (slashed text).length < c.cells.length) :
    ∃ c', toTmuPath c = .ok c' ∧ c'.block = c.block ∧ c'.size = (slashed text).length ∧ c'.cells.take c'.size = slashed text ∧ c'.cells[c'.size]? = some 0 ∧ c'.cells.length = c.cells.length := by
  have hpos : 0 < text.length := List.length_pos_iff.2 hn
  have hle : text.length ≤ (slashed text).length := by rw [slashed]; split <;> simp
  have hi : c.block.isSome = true := by
    cases h : c.block with
    | none => exact absurd h hb
    | some _ => rfl
  rw [toTmuPath, assert, if_pos (by rw [hi]; simp; omega), ok_bind, endSlash, if_pos (by omega)]
  have hget : c.cells[c.size - 1]? = text[text.length - 1]? := by
    rw [hs, ← List.getElem?_take_of_lt (j := text.length) (by omega), ht]
  have hlast : text.getLast? = text[text.length - 1]? := List.getLast?_eq_getElem?
  rw [rd, hget, ← hlast]
  obtain ⟨x, hx⟩ : ∃ x, text.getLast? = some x := ⟨text.getLast hn, List.getLast?_eq_some_getLast hn⟩
  rw [hx]
  dsimp only
  rw [ok_bind]
  by_cases h : x = slash
  · rw [if_neg (by simpa using h), ok_bind, assert, if_pos (by simp; omega), ok_bind, wr, if_pos (by omega), ok_bind]
    have hse : slashed text = text := by rw [slashed, if_pos (by rw [hx, h])]
    refine ⟨_, rfl, rfl, by dsimp only; rw [hse, hs], ?_, ?_, by simp⟩
    · dsimp only
      rw [List.take_set, hs, ht, hse, List.set_eq_of_length_le (Nat.le_refl _)]
    · dsimp only
      rw [List.getElem?_set_self (by omega)]
  · have hse : slashed text = text ++ [slash] := by rw [slashed, if_neg (by rw [hx]; simpa using h)]
    rw [hse] at hl
    simp only [List.length_append, List.length_singleton] at hl
    rw [if_pos h, assert, if_pos (by simp; omega), ok_bind, wr, if_pos (by omega), ok_bind, ok_bind]
    dsimp only
    rw [assert, if_pos (by simp; omega), ok_bind, wr, if_pos (by simp; omega), ok_bind]
    refine ⟨_, rfl, rfl, by dsimp only; rw [hse, hs]; simp, ?_, ?_, by simp⟩
    · dsimp only
      rw [List.take_set, List.set_eq_of_length_le (by simp; omega), hse, List.take_add_one, List.take_set, List.set_eq_of_length_le (by simp; omega), hs, ht,
        List.getElem?_set_self (by omega)]
      rfl
    · dsimp only
      rw [List.getElem?_set_self (by simp; omega)]

theorem cwdPad_spec {bs : List Nat} (extra : Nat) {c : Contents} {w : World} {text : List Byte} (h0 : 0 ∉ text) (hb : c.block ≠ none) (hw : w.blocks = c.block.toList ++ bs)
    (hl : text.length + 1 ≤ c.cells.length) (ht : c.cells.take (text.length + 1) = text ++ [0]) :
    ∃ r w', cwdPad extra c w = .ok (r, w') ∧ Gives w bs r.contents w' ∧
      (r.ec = 0 → r.contents.block ≠ none ∧ r.contents.size = text.length ∧ r.contents.cells.take text.length = text ∧ text.length + extra + 1 ≤ r.contents.cells.length ∧
        c.cells.length ≤ r.contents.cells.length) ∧ (Quiet w → r.ec = 0) := by
  have ht' : c.cells.take text.length = text := by
    have : c.cells.take text.length = (c.cells.take (text.length + 1)).take text.length := by rw [List.take_take, Nat.min_eq_left (by omega)]
    rw [this, ht]
    simp
  rw [cwdPad, strlen_spec h0 ht, ok_bind]
  dsimp only
  obtain ⟨b, hb'⟩ : ∃ b, c.block = some b := by
    cases h : c.block with
    | none => exact absurd h hb
    | some b => exact ⟨b, rfl⟩
  by_cases h : text.length + extra + 1 > c.cells.length
  · rw [if_pos h, hb', reallocAny]
    try dsimp only
    rw [hb'] at hw
    rcases realloc_around (w := w) (b := b) (bs := bs) hw with ⟨w2, e2, r1, r2, r3, r4⟩ | ⟨w2, e2, r1, r2, r3⟩
    · rw [e2, ok_bind]
      dsimp only
      refine ⟨_, _, rfl, ⟨r1, r2, fun _ => ?_⟩, fun _ => ⟨by simp, rfl, ?_, ?_, ?_⟩, fun _ => rfl⟩
      · dsimp only
        rw [resize_length]
        omega
      · dsimp only
        rw [resize_take (by omega) (by omega), ht']
      · dsimp only
        rw [resize_length]
        omega
      · dsimp only
        rw [resize_length]
        omega
    · rw [e2, ok_bind]
      dsimp only
      rw [destroy_spec (bs := bs) ⟨⟨b, rfl, r2⟩, by dsimp only; omega, by dsimp only; omega⟩, ok_bind]
      exact ⟨_, _, rfl, ⟨r1.trans ⟨rfl, rfl, rfl, rfl, Nat.le_refl _, ⟨0, by rw [List.drop_zero]⟩, fun _ => rfl, fun _ h => h⟩, rfl, fun h => absurd rfl h⟩, fun h => absurd h (by decide), fun hq => absurd r3 hq.no_false⟩
  · rw [if_neg h]
    exact ⟨_, _, rfl, ⟨Around.rfl, hw, fun _ => by dsimp only; omega⟩, fun _ => ⟨hb, rfl, ht', by dsimp only; omega, Nat.le_refl _⟩, fun _ => rfl⟩

theorem currentWorkingDirectory_spec (extra : Nat) (w : World) (h0 : 0 ∉ cwdText w.cwd) (hx : 0 < extra ∨ (cwdText w.cwd).getLast? = some slash ∨ ((cwdText w.cwd).length + 1) % 200 ≠ 0) :
    ∃ r w', currentWorkingDirectory extra w = .ok (r, w') ∧ Gives w w.blocks r.contents w' ∧
      (r.ec = 0 → r.contents.block ≠ none ∧ r.contents.cells.take r.contents.size = slashed (cwdText w.cwd) ∧ r.contents.cells[r.contents.size]? = some 0 ∧
        r.contents.size + extra ≤ r.contents.cells.length) ∧ (Quiet w → r.ec = 0) := by
  rw [currentWorkingDirectory]
  obtain ⟨r, w1, e1, a1, a2, a3⟩ := cwdGet_spec w
  rw [e1, ok_bind]
  dsimp only
  by_cases h : r.ec = 0
  · rw [if_pos h]
    obtain ⟨b1, b2, b3, b4⟩ := a2 h
    obtain ⟨r2, w2, e2, c1, c2, c3⟩ := cwdPad_spec extra (w := w1) h0 b1 a1.blocks b3 b4
    rw [e2, ok_bind]
    dsimp only
    have hg : Gives w w.blocks r2.contents w2 := ⟨a1.around.trans c1.around, c1.blocks, c1.cells⟩
    have hq2 : Quiet w → r2.ec = 0 := fun hq => c3 (hq.around a1.around)
    by_cases h2 : r2.ec = 0
    · rw [if_pos h2]
      obtain ⟨d1, d2, d3, d4, d5⟩ := c2 h2
      have hne : cwdText w.cwd ≠ [] := by
        rw [cwdText]
        split
        · simp
        · rename_i hc
          cases hc' : w.cwd with
          | nil => exact absurd hc' hc
          | cons x xs => simp
      have hlen : (slashed (cwdText w.cwd)).length < r2.contents.cells.length := by
        rw [slashed]
        split
        · omega
        · rename_i hns
          rw [List.length_append, List.length_singleton]
          rcases hx with hx | hx | hx
          · omega
          · exact absurd hx hns
          · omega
      obtain ⟨c', e3, f1, f2, f3, f4, f5⟩ := toTmuPath_spec d1 d2 d3 hne hlen
      rw [e3, ok_bind]
      refine ⟨_, _, rfl, ⟨hg.around, by dsimp only; rw [f1]; exact hg.blocks, fun _ => by dsimp only; rw [f5, f2]; omega⟩, fun _ => ⟨by dsimp only; rw [f1]; exact d1, f3, f4, ?_⟩, fun _ => rfl⟩
      dsimp only
      rw [f2, f5, slashed]
      split
      · omega
      · rw [List.length_append, List.length_singleton]; omega
    · rw [if_neg h2]
      exact ⟨r2, w2, rfl, hg, fun hx => absurd hx h2, hq2⟩
  · rw [if_neg h]
    exact ⟨r, w1, rfl, a1, fun hx => absurd hx h, a3⟩

end Tm.File
