import Verif.File.Lemmas

/-! Opening, reading a whole file, writing, creating directories. -/

namespace Tm.File

/-- What a whole function leaves alone. -/
structure Calm (w w' : World) : Prop where
  streams : w'.streams = w.streams
  dirs : w'.dirs = w.dirs
  blocks : w'.blocks = w.blocks
  next : w.next ≤ w'.next
  cwd : w'.cwd = w.cwd
  plan : ∃ n, w'.plan = w.plan.drop n

theorem Calm.rfl {w : World} : Calm w w := ⟨Eq.refl _, Eq.refl _, Eq.refl _, Nat.le_refl _, Eq.refl _, ⟨0, by rw [List.drop_zero]⟩⟩

theorem Calm.trans {a b c : World} (h : Calm a b) (g : Calm b c) : Calm a c := by
  refine ⟨g.1.trans h.1, g.2.trans h.2, g.3.trans h.3, Nat.le_trans h.4 g.4, g.5.trans h.5, ?_⟩
  obtain ⟨m, hm⟩ := h.plan
  obtain ⟨n, hn⟩ := g.plan
  exact ⟨m + n, by rw [hn, hm, List.drop_drop]⟩

theorem Calm.fresh {w w' : World} (h : Calm w w') (g : Fresh w) : Fresh w' :=
  ⟨fun s hs => Nat.lt_of_lt_of_le (g.1 s (h.streams ▸ hs)) h.next, fun d hd => Nat.lt_of_lt_of_le (g.2 d (h.dirs ▸ hd)) h.next,
    fun b hb => Nat.lt_of_lt_of_le (g.3 b (h.blocks ▸ hb)) h.next⟩

theorem Alone.drop {w w' : World} (h : Alone w) (hp : ∃ n, w'.plan = w.plan.drop n) : Alone w' := by
  obtain ⟨n, hn⟩ := hp
  exact fun e he => h e (List.mem_of_mem_drop (hn ▸ he))

theorem plain_calm {α : Type} (w : World) (f : Tree → Except Errno (α × Tree)) : Calm w (w.plain f).2 := by
  obtain ⟨h, hp⟩ := plain_same w f
  exact ⟨h.streams, h.dirs, h.blocks, Nat.le_of_eq h.next.symm, h.cwd, ⟨1, by rw [hp, List.drop_one]⟩⟩

/-- Opening a file to read it. -/
theorem fopenRead_spec (p : List Byte) (w : World) (hf : Fresh w) :
    (∃ w', fopenRead p w = (none, w') ∧ Calm w w' ∧ (Alone w → w'.tree = w.tree) ∧ w'.allocs = w.allocs ∧ ∃ e, w'.errno = (if e = 0 then w.errno else e) ∧ ((w.event.fail = true ∧ e = w.event.err) ∨
      (w.event.fail = false ∧ ((find (w.event.others w.tree) w.cwd p = .error e) ∨ (find (w.event.others w.tree) w.cwd p = .ok none ∧ e = ENOENT) ∨
        (find (w.event.others w.tree) w.cwd p = .ok (some .other) ∧ e = ENXIO))))) ∨
    (∃ w' s, fopenRead p w = (some s.id, w') ∧ Using w.streams s w' ∧ s.error = false ∧ s.pending = [] ∧ w'.blocks = w.blocks ∧ w'.dirs = w.dirs ∧ w'.next = w.next + 1 ∧
      w'.cwd = w.cwd ∧ w'.plan = w.plan.tail ∧ (Alone w → w'.tree = w.tree) ∧ w'.allocs = w.allocs ∧ w.event.fail = false ∧ w'.errno = (if w.event.err = 0 then w.errno else w.event.err) ∧
      ((s.isDir = true ∧ find (w.event.others w.tree) w.cwd p = .ok (some .dir)) ∨ (s.isDir = false ∧ find (w.event.others w.tree) w.cwd p = .ok (some (.file s.rest))))) := by
  rw [fopenRead]
  generalize hg : (fun t => match find t w.cwd p with
    | .error e => .error e
    | .ok none => .error ENOENT
    | .ok (some .other) => .error ENXIO
    | .ok (some n) => .ok (n, t) : Tree → Except Errno (Node × Tree)) = g
  obtain ⟨hs, hp⟩ := plain_same w g
  have hcalm := plain_calm w g
  have hx : ∀ t, g t = match find t w.cwd p with
    | .error e => .error e
    | .ok none => .error ENOENT
    | .ok (some .other) => .error ENXIO
    | .ok (some n) => .ok (n, t) := fun t => by rw [← hg]
  rcases plain_cases w g with ⟨e, h1, h2, h3, h4⟩ | ⟨a, t, h1, h2, h3, h4, h5⟩
  · left
    refine ⟨(w.plain g).2, ?_, hcalm, fun ha => by rw [h2, ha.others], hs.allocs, e, h3, ?_⟩
    · generalize w.plain g = r at h1 ⊢
      obtain ⟨r1, r2⟩ := r
      dsimp only at h1
      rw [h1]
    · rcases h4 with h4 | ⟨h4, h5⟩
      · exact Or.inl h4
      · refine Or.inr ⟨h4, ?_⟩
        rw [hx] at h5
        revert h5
        cases hfi : find (w.event.others w.tree) w.cwd p with
        | error e' => intro h5; injection h5 with h5; rw [h5]; exact Or.inl rfl
        | ok o =>
          cases o with
          | none => intro h5; injection h5 with h5; exact Or.inr (Or.inl ⟨rfl, h5.symm⟩)
          | some n =>
            cases n with
            | other => intro h5; injection h5 with h5; exact Or.inr (Or.inr ⟨rfl, h5.symm⟩)
            | file b => intro h5; cases h5
            | dir => intro h5; cases h5
  · right
    have hid : ∀ x ∈ w.streams, x.id ≠ w.next := fun x hx' => Nat.ne_of_lt (hf.streams x hx')
    rw [hx] at h5
    revert h5
    cases hfi : find (w.event.others w.tree) w.cwd p with
    | error e' => intro h5; cases h5
    | ok o =>
      cases o with
      | none => intro h5; cases h5
      | some n =>
        intro h5
        have hcase : (n = .dir ∨ ∃ b, n = .file b) ∧ a = n ∧ t = w.event.others w.tree := by
          cases n with
          | other => cases h5
          | file b => injection h5 with h5; injection h5 with h5 h6; exact ⟨Or.inr ⟨b, rfl⟩, h5.symm, h6.symm⟩
          | dir => injection h5 with h5; injection h5 with h5 h6; exact ⟨Or.inl rfl, h5.symm, h6.symm⟩
        obtain ⟨hn, rfl, ht⟩ := hcase
        generalize hr : w.plain g = r at h1 h2 h3 hs hp ⊢
        obtain ⟨r1, r2⟩ := r
        dsimp only at h1 h2 h3 hs hp ⊢
        subst h1
        rw [ht] at h2
        rcases hn with rfl | ⟨b, rfl⟩
        · refine ⟨_, ⟨r2.next, resolve r2.cwd p, [], true, [], false⟩, rfl, ⟨?_, ?_⟩, rfl, rfl, hs.blocks, hs.dirs, ?_, hs.cwd, hp, ?_, hs.allocs, h4, h3, Or.inl ⟨rfl, rfl⟩⟩
          · show _ :: r2.streams = _; rw [hs.streams]
          · dsimp only; rw [hs.next]; exact hid
          · show r2.next + 1 = _; rw [hs.next]
          · intro ha; show r2.tree = _; rw [h2, ha.others]
        · refine ⟨_, ⟨r2.next, resolve r2.cwd p, b, false, [], false⟩, rfl, ⟨?_, ?_⟩, rfl, rfl, hs.blocks, hs.dirs, ?_, hs.cwd, hp, ?_, hs.allocs, h4, h3, Or.inr ⟨rfl, rfl⟩⟩
          · show _ :: r2.streams = _; rw [hs.streams]
          · dsimp only; rw [hs.next]; exact hid
          · show r2.next + 1 = _; rw [hs.next]
          · intro ha; show r2.tree = _; rw [h2, ha.others]

theorem ferror_spec {l : List Stream} {s : Stream} {w : World} (h : Using l s w) : ferror s.id w = .ok s.error := by rw [ferror, stream_head h.streams]

/-- Reading a file. -/
theorem readFile_spec (p : List Byte) (w : World) (hf : Fresh w) :
    ∃ r w', readFile p w = .ok (r, w') ∧ w'.streams = w.streams ∧ w'.dirs = w.dirs ∧ w'.blocks = r.contents.block.toList ++ w.blocks ∧ Fresh w' ∧ w'.cwd = w.cwd ∧
      (∃ n, w'.plan = w.plan.drop n) ∧ (r.contents.block ≠ none → r.contents.size ≤ r.contents.cells.length ∧ 0 < r.contents.cells.length) ∧ (r.contents.block = none → r.contents.size = 0) ∧
      (Alone w → w'.tree = w.tree) ∧ (Alone w → r.ec = 0 → ∃ b, find w.tree w.cwd p = .ok (some (.file b)) ∧ r.contents.cells.take r.contents.size = b) ∧
      (Quiet w → (∃ b, find w.tree w.cwd p = .ok (some (.file b))) → r.ec = 0) ∧ (Quiet w → ∀ e, find w.tree w.cwd p = .error e → e ≠ 0 → r.ec = e) ∧ (Quiet w → find w.tree w.cwd p = .ok none → r.ec = ENOENT) ∧ (Quiet w → ∀ a ∈ w'.allocs, a = true) := by
  rw [readFile]
  have hf0 : Fresh { w with errno := 0 } := ⟨hf.1, hf.2, hf.3⟩
  have hne : ∀ w : World, errnoOrIo w ≠ 0 := by
    intro w h
    rw [errnoOrIo] at h
    split at h
    · next h1 => exact h1 h
    · exact absurd h (by decide)
  rcases fopenRead_spec p _ hf0 with ⟨w1, e1, h1, h2, h5', e, h3, h4⟩ | ⟨w1, s, e1, hu, h2, h3, h4, h5, h6, h7, h8, h9, h10, h11, h12, h13⟩
  · rw [e1]
    dsimp only
    have hq : Quiet w → w.event.fail = true → False := fun hq hx => by rw [hq.event.2.1] at hx; cases hx
    refine ⟨_, w1, rfl, h1.streams, h1.dirs, h1.blocks, (Calm.fresh h1 hf0), h1.cwd, h1.plan, fun hx => absurd rfl hx, fun _ => rfl, h2, fun ha hx => absurd hx (hne _), ?_, ?_, ?_, ?_⟩
    · intro q ⟨b, hb⟩
      rcases h4 with ⟨h4, _⟩ | ⟨_, h4⟩
      · exact absurd h4 (fun hx => hq q hx)
      · rw [show ({ w with errno := 0 } : World).event.others ({ w with errno := 0 } : World).tree = w.tree from q.alone.others] at h4
        change find w.tree w.cwd p = _ ∨ (find w.tree w.cwd p = _ ∧ _) ∨ (find w.tree w.cwd p = _ ∧ _) at h4
        rw [hb] at h4
        rcases h4 with h4 | ⟨h4, _⟩ | ⟨h4, _⟩ <;> cases h4
    · intro q e' he' hne'
      rcases h4 with ⟨h4, _⟩ | ⟨_, h4⟩
      · exact absurd h4 (fun hx => hq q hx)
      · rw [show ({ w with errno := 0 } : World).event.others ({ w with errno := 0 } : World).tree = w.tree from q.alone.others] at h4
        change find w.tree w.cwd p = _ ∨ (find w.tree w.cwd p = _ ∧ _) ∨ (find w.tree w.cwd p = _ ∧ _) at h4
        rw [he'] at h4
        rcases h4 with h4 | ⟨h4, _⟩ | ⟨h4, _⟩
        · injection h4 with h4
          subst h4
          rw [if_neg hne'] at h3
          dsimp only
          rw [errnoOrIo, h3, if_pos hne']
        · cases h4
        · cases h4
    · intro q he'
      rcases h4 with ⟨h4, _⟩ | ⟨_, h4⟩
      · exact absurd h4 (fun hx => hq q hx)
      · rw [show ({ w with errno := 0 } : World).event.others ({ w with errno := 0 } : World).tree = w.tree from q.alone.others] at h4
        change find w.tree w.cwd p = _ ∨ (find w.tree w.cwd p = _ ∧ _) ∨ (find w.tree w.cwd p = _ ∧ _) at h4
        rw [he'] at h4
        rcases h4 with h4 | ⟨h4, h5⟩ | ⟨h4, _⟩
        · cases h4
        · subst h5
          rw [if_neg (by decide)] at h3
          dsimp only
          rw [errnoOrIo, h3, if_pos (by decide)]
        · cases h4
    · exact fun q a ha => q.allocs a (h5' ▸ ha)
  · rw [e1]
    dsimp only
    have hr : rounds s.id w1 = s.rest.length + 1 := by rw [rounds, stream_head hu.streams]
    rw [hr]
    obtain ⟨r, s', w2, e2, H⟩ := readBody_spec hu (by rw [h4, h6]; exact fun b hb => Nat.lt_succ_of_lt (hf.blocks b hb))
    rw [e2, ok_bind]
    dsimp only
    rw [← H.id, ferror_spec H.using_, ok_bind]
    obtain ⟨b, w3, e3, k1, k2, k3, k4, k5, k6, k7, k8, k9⟩ := fclose_spec H.using_
    rw [e3, ok_bind]
    dsimp only
    have hrc : (if w2.errno ≠ 0 ∨ s'.error = true then { r with ec := errnoOrIo w2 } else r : ContentsResult).contents = r.contents := by split <;> rfl
    have hrec : (if w2.errno ≠ 0 ∨ s'.error = true then { r with ec := errnoOrIo w2 } else r : ContentsResult).ec = 0 → r.ec = 0 ∧ s'.error = false := by
      intro hx
      by_cases hb : w2.errno ≠ 0 ∨ s'.error = true
      · rw [if_pos hb] at hx; exact absurd hx (hne _)
      · rw [if_neg hb] at hx
        refine ⟨hx, ?_⟩
        cases hse : s'.error
        · rfl
        · exact absurd (Or.inr hse) hb
    have hplan : ∃ n, w3.plan = w.plan.drop n := by
      obtain ⟨n, hn⟩ := H.plan
      rw [k8, hn, h8]
      exact ⟨1 + n + 1, by simp only [← List.drop_one, List.drop_drop]⟩
    refine ⟨_, w3, rfl, k1, by rw [k3, H.dirs, h5], by rw [k2, H.blocks, hrc, h4], ?_, by rw [k7, H.cwd, h7], hplan, by rw [hrc]; exact H.size, by rw [hrc]; exact H.null, ?_, ?_, ?_, ?_, ?_, fun q a ha => q.allocs a (by have := H.allocs a (k6 ▸ ha); rw [h10] at this; exact this)⟩
    · have := H.next
      have h6' : w1.next = w.next + 1 := h6
      refine ⟨?_, ?_, ?_⟩
      · rw [k1, k4]; intro x hx; have := hf.streams x hx; omega
      · rw [k3, H.dirs, h5, k4]; intro x hx; have := hf.dirs x hx; omega
      · rw [k2, k4]; exact H.fresh
    · intro ha
      rw [k9, H.pending, h3]
      have ha2 : Alone w2 := ((show Alone { w with errno := 0 } from ha).tail h8).drop H.plan
      have ha1 : Alone w1 := (show Alone { w with errno := 0 } from ha).tail h8
      rw [ha2.others]
      have : (if w2.event.fail = true then List.take (min w2.event.amount (([] : List Byte).length - 1)) [] else [] : List Byte) = [] := by
        split
        · rw [List.take_nil]
        · rfl
      rw [this, extend_nil, H.tree ha1, h9 ha]
    · intro ha hec
      obtain ⟨g1, g2⟩ := hrec hec
      obtain ⟨g3, g4⟩ := H.exact g1 g2
      rcases h13 with ⟨h13, _⟩ | ⟨_, h13⟩
      · rw [g3] at h13; cases h13
      · refine ⟨s.rest, ?_, by rw [hrc, g4]; rfl⟩
        rw [show ({ w with errno := 0 } : World).event.others ({ w with errno := 0 } : World).tree = w.tree from ha.others] at h13
        exact h13
    · intro q ⟨b, hb⟩
      have hoth : ({ w with errno := 0 } : World).event.others ({ w with errno := 0 } : World).tree = w.tree := q.alone.others
      rw [hoth] at h13
      change (s.isDir = true ∧ find w.tree w.cwd p = _) ∨ (s.isDir = false ∧ find w.tree w.cwd p = _) at h13
      rw [hb] at h13
      rcases h13 with ⟨_, h13⟩ | ⟨h13, _⟩
      · cases h13
      · have q1 : Quiet w1 := Quiet.tail (w := { w with errno := 0 }) ⟨q.calls, q.allocs⟩ h8 (by rw [h10]; exact fun _ h => h)
        obtain ⟨g1, g2, g3⟩ := H.quiet q1 h13
        have he0 : w2.errno = 0 := by
          rw [g3, h12]
          have : ({ w with errno := 0 } : World).event.err = 0 := q.event.2.2
          rw [if_pos this]
        rw [if_neg (by rw [he0, g2, h2]; simp)]
        exact g1
    · intro q e' he'
      have hoth : ({ w with errno := 0 } : World).event.others ({ w with errno := 0 } : World).tree = w.tree := q.alone.others
      rw [hoth] at h13
      change (s.isDir = true ∧ find w.tree w.cwd p = _) ∨ (s.isDir = false ∧ find w.tree w.cwd p = _) at h13
      rw [he'] at h13
      rcases h13 with ⟨_, h13⟩ | ⟨_, h13⟩ <;> cases h13
    · intro q he'
      have hoth : ({ w with errno := 0 } : World).event.others ({ w with errno := 0 } : World).tree = w.tree := q.alone.others
      rw [hoth] at h13
      change (s.isDir = true ∧ find w.tree w.cwd p = _) ∨ (s.isDir = false ∧ find w.tree w.cwd p = _) at h13
      rw [he'] at h13
      rcases h13 with ⟨_, h13⟩ | ⟨_, h13⟩ <;> cases h13

/-! ## Writing -/

theorem extend_place (t : Tree) (q : List (List Byte)) (a b : List Byte) : extend (place t q (some (.file a))) q b = place t q (some (.file (a ++ b))) := by
  rw [extend]
  have : place t q (some (.file a)) q = some (.file a) := by rw [place, if_pos rfl]
  rw [this]
  funext r
  simp only [place]
  split <;> rfl

theorem place_same (t : Tree) (q : List (List Byte)) (n : Option Node) : place t q n q = n := by rw [place, if_pos rfl]

theorem place_ne (t : Tree) {q r : List (List Byte)} (n : Option Node) (h : r ≠ q) : place t q n r = t r := by rw [place, if_neg h]

/-- Nothing changes on the way to a place when the place changes. -/
theorem walk_place (t : Tree) (q : List (List Byte)) (n : Option Node) : ∀ (rest pre : List (List Byte)), pre ++ rest = q → walk (place t q n) pre rest = walk t pre rest
  | [], _, _ => rfl
  | x :: rest, pre, h => by
    have hne : pre ≠ q := by
      intro hx
      have := congrArg List.length h
      rw [hx, List.length_append, List.length_cons] at this
      omega
    rw [walk, walk, place_ne t n hne]
    split
    · exact walk_place t q n rest (pre ++ [x]) (by rw [List.append_assoc]; exact h)
    · rfl
    · rfl

/-- Looking up what was just put somewhere. -/
theorem find_place {t : Tree} {cwd : List (List Byte)} {p : List Byte} {o : Option Node} (h : find t cwd p = .ok o) (n : Node) (hn : n = .dir ∨ trailing p = false) :
    find (place t (resolve cwd p) (some n)) cwd p = .ok (some n) := by
  rw [find] at h ⊢
  by_cases hp : p = []
  · rw [if_pos hp] at h; cases h
  · rw [if_neg hp] at h ⊢
    rw [walk_place t (resolve cwd p) (some n) (resolve cwd p) [] rfl]
    cases hw : walk t [] (resolve cwd p) with
    | some e => rw [hw] at h; cases h
    | none =>
      dsimp only
      rw [place_same]
      rcases hn with rfl | hn
      · rfl
      · cases n with
        | dir => rfl
        | file b => dsimp only; rw [hn]; rfl
        | other => dsimp only; rw [hn]; rfl

theorem NoFail.event {w : World} (h : NoFail w) : w.event.fail = false := by
  rcases event_mem w with he | he
  · rw [he]
  · exact h _ he

theorem NoFail.drop {w w' : World} (h : NoFail w) (hp : ∃ n, w'.plan = w.plan.drop n) : NoFail w' := by
  obtain ⟨n, hn⟩ := hp
  exact fun e he => h e (List.mem_of_mem_drop (hn ▸ he))

theorem Quiet.drop {w w' : World} (h : Quiet w) (hp : ∃ n, w'.plan = w.plan.drop n) (ha : ∀ a ∈ w'.allocs, a ∈ w.allocs) : Quiet w' := by
  obtain ⟨n, hn⟩ := hp
  exact ⟨fun e he => h.calls e (List.mem_of_mem_drop (hn ▸ he)), fun a h' => h.allocs a (ha a h')⟩

theorem Quiet.noFail {w : World} (h : Quiet w) : NoFail w := fun e he => (h.calls e he).2.1

theorem Writable.trailing {t : Tree} {cwd : List (List Byte)} {p : List Byte} (h : Writable t cwd p) : File.trailing p = false := by
  rcases h with ⟨_, h⟩ | ⟨b, h⟩
  · exact h
  · rw [find] at h
    by_cases hp : p = []
    · rw [if_pos hp] at h; cases h
    · rw [if_neg hp] at h
      cases hw : walk t [] (resolve cwd p) with
      | some e => rw [hw] at h; cases h
      | none =>
        rw [hw] at h
        dsimp only at h
        cases ht : t (resolve cwd p) with
        | none => rw [ht] at h; cases h
        | some n =>
          rw [ht] at h
          cases hx : File.trailing p with
          | false => rfl
          | true =>
            rw [hx] at h
            cases n <;> cases h

/-- Opening a file to write it. -/
theorem fopenWrite_spec (p : List Byte) (w : World) (hf : Fresh w) :
    (∃ w', fopenWrite p w = (none, w') ∧ Calm w w' ∧ w'.tree = w.event.others w.tree ∧ (w.event.fail = true ∨ ¬ Writable (w.event.others w.tree) w.cwd p)) ∨
    (∃ w' s, fopenWrite p w = (some s.id, w') ∧ Using w.streams s w' ∧ s.at_ = resolve w.cwd p ∧ s.error = false ∧ s.pending = [] ∧ w'.blocks = w.blocks ∧ w'.dirs = w.dirs ∧
      w'.next = w.next + 1 ∧ w'.cwd = w.cwd ∧ w'.plan = w.plan.tail ∧ w'.allocs = w.allocs ∧ w.event.fail = false ∧
      Writable (w.event.others w.tree) w.cwd p ∧ w'.tree = place (w.event.others w.tree) (resolve w.cwd p) (some (.file []))) := by
  rw [fopenWrite]
  generalize hg : (fun t => match find t w.cwd p with
    | .error e => .error e
    | .ok none => if trailing p then .error EISDIR else .ok ((), place t (resolve w.cwd p) (some (.file [])))
    | .ok (some (.file _)) => .ok ((), place t (resolve w.cwd p) (some (.file [])))
    | .ok (some .dir) => .error EISDIR
    | .ok (some .other) => .error ENXIO : Tree → Except Errno (Unit × Tree)) = g
  obtain ⟨hs, hp⟩ := plain_same w g
  have hcalm := plain_calm w g
  have hok : ∀ t a t', g t = .ok (a, t') → Writable t w.cwd p ∧ t' = place t (resolve w.cwd p) (some (.file [])) := by
    intro t a t' h
    rw [← hg] at h
    dsimp only at h
    revert h
    cases hfi : find t w.cwd p with
    | error e => intro h; cases h
    | ok o =>
      cases o with
      | none =>
        dsimp only
        cases htr : trailing p with
        | true => rw [if_pos rfl]; intro h; cases h
        | false =>
          rw [if_neg (by simp)]
          intro h
          injection h with h; injection h with h h'
          exact ⟨Or.inl ⟨hfi, htr⟩, h'.symm⟩
      | some n =>
        cases n with
        | dir => intro h; cases h
        | other => intro h; cases h
        | file b =>
          intro h
          injection h with h; injection h with h h'
          exact ⟨Or.inr ⟨b, hfi⟩, h'.symm⟩
  have herr : ∀ t e, g t = .error e → ¬ Writable t w.cwd p := by
    intro t e h hx
    rw [← hg] at h
    dsimp only at h
    rcases hx with ⟨h1, h2⟩ | ⟨b, h1⟩
    · rw [h1] at h
      dsimp only at h
      rw [h2, if_neg (by simp)] at h
      cases h
    · rw [h1] at h
      cases h
  rcases plain_cases w g with ⟨e, h1, h2, h3, h4⟩ | ⟨a, t, h1, h2, h3, h4, h5⟩
  · left
    refine ⟨(w.plain g).2, ?_, hcalm, h2, ?_⟩
    · generalize w.plain g = r at h1 ⊢
      obtain ⟨r1, r2⟩ := r
      dsimp only at h1
      rw [h1]
    · rcases h4 with ⟨h4, _⟩ | ⟨_, h4⟩
      · exact Or.inl h4
      · exact Or.inr (herr _ _ h4)
  · right
    have hid : ∀ x ∈ w.streams, x.id ≠ w.next := fun x hx' => Nat.ne_of_lt (hf.streams x hx')
    obtain ⟨hwr, ht⟩ := hok _ _ _ h5
    generalize hr : w.plain g = r at h1 h2 h3 hs hp ⊢
    obtain ⟨r1, r2⟩ := r
    dsimp only at h1 h2 h3 hs hp ⊢
    subst h1
    refine ⟨_, ⟨r2.next, resolve r2.cwd p, [], false, [], false⟩, rfl, ⟨?_, ?_⟩, ?_, rfl, rfl, hs.blocks, hs.dirs, ?_, hs.cwd, hp, hs.allocs, h4, hwr, ?_⟩
    · show _ :: r2.streams = _; rw [hs.streams]
    · dsimp only; rw [hs.next]; exact hid
    · dsimp only; rw [hs.cwd]
    · show r2.next + 1 = _; rw [hs.next]
    · show r2.tree = _; rw [h2, ht]

/-- Writing to a stream that has nothing waiting. -/
theorem fwrite_spec {l : List Stream} {s : Stream} {w : World} (h : Using l s w) (hp : s.pending = []) (data : List Byte) :
    ∃ n s' w', fwrite s.id data w = .ok (n, w') ∧ Using l s' w' ∧ s'.id = s.id ∧ s'.at_ = s.at_ ∧ w'.blocks = w.blocks ∧ w'.dirs = w.dirs ∧ w'.next = w.next ∧
      w'.allocs = w.allocs ∧ w'.cwd = w.cwd ∧ w'.plan = w.plan.tail ∧ ∃ k, w'.tree = extend (w.event.others w.tree) s.at_ (data.take k) ∧
      ((s'.error = true ∧ s'.pending = [] ∧ w.event.fail = true) ∨ (s'.error = s.error ∧ s'.pending = data.drop k ∧ n = data.length ∧ w.event.fail = false ∧ w'.errno = (if w.event.err = 0 then w.errno else w.event.err))) := by
  rw [fwrite, stream_head h.streams]
  dsimp only
  by_cases hf : w.event.fail = true
  · rw [if_pos hf]
    refine ⟨_, { s with error := true }, _, rfl, ⟨?_, h.other⟩, rfl, rfl, rfl, rfl, rfl, rfl, rfl, rfl, _, rfl, Or.inl ⟨rfl, hp, hf⟩⟩
    rw [stop_streams]
    exact setStream_head h.streams rfl h.other
  · rw [if_neg hf]
    refine ⟨_, { s with pending := data.drop w.event.amount }, _, rfl, ⟨?_, h.other⟩, rfl, rfl, rfl, rfl, rfl, rfl, rfl, rfl, w.event.amount, rfl, Or.inr ⟨rfl, rfl, rfl, by simpa using hf, rfl⟩⟩
    rw [stop_streams]
    exact setStream_head h.streams rfl h.other

/-- Opening, writing and closing. -/
theorem writeOut_spec (p data : List Byte) (w : World) (hf : Fresh w) :
    ∃ r w', writeOut p data w = .ok (r, w') ∧ Calm w w' ∧
      (Alone w → w'.tree = w.tree ∨ ∃ b, b <+: data ∧ w'.tree = place w.tree (resolve w.cwd p) (some (.file b))) ∧
      (Alone w → r.ec = 0 → r.written = data.length ∧ Writable w.tree w.cwd p ∧ ∃ b, b <+: data ∧ w'.tree = place w.tree (resolve w.cwd p) (some (.file b)) ∧ (NoFail w → b = data)) ∧
      (Quiet w → Writable w.tree w.cwd p → r.ec = 0) := by
  have hne : ∀ w : World, errnoOrIo w ≠ 0 := by
    intro w h
    rw [errnoOrIo] at h
    split at h
    · next h1 => exact h1 h
    · exact absurd h (by decide)
  rw [writeOut]
  rcases fopenWrite_spec p w hf with ⟨w1, e1, h1, h2, h3⟩ | ⟨w1, s, e1, hu, hat, h2, h3, h4, h5, h6, h7, h8, h9, h10, h11, h12⟩
  · rw [e1]
    refine ⟨_, w1, rfl, h1, fun ha => Or.inl (by rw [h2, ha.others]), fun _ hx => absurd hx (hne _), fun hq hw => ?_⟩
    rcases h3 with h3 | h3
    · rw [hq.event.2.1] at h3; cases h3
    · rw [hq.alone.others] at h3; exact absurd hw h3
  · rw [e1]
    dsimp only
    have hu0 : Using w.streams s { w1 with errno := 0 } := ⟨hu.streams, hu.other⟩
    obtain ⟨n, s2, w2, e2, hu2, hi2, hat2, k1, k2, k3, k4, k5, k6, k, k7, k8⟩ := fwrite_spec hu0 h3 data
    rw [e2, ok_bind]
    dsimp only
    rw [← hi2, ferror_spec hu2, ok_bind]
    obtain ⟨b, w3, e3, j1, j2, j3, j4, j5, j6, j7, j8, j9⟩ := fclose_spec hu2
    rw [e3, ok_bind]
    have hn : w1.next = w.next + 1 := h6
    have hk3 : w2.next = w1.next := k3
    have hpl : w2.plan = w1.plan.tail := k6
    have hd2 : w2.plan = w.plan.drop 2 := by rw [hpl, h8, ← List.drop_one, ← List.drop_one, List.drop_drop]
    have hd3 : w3.plan = w.plan.drop 3 := by rw [j8, hd2, ← List.drop_one, List.drop_drop]
    have htree : Alone w → ∃ b, b <+: data ∧ w3.tree = place w.tree (resolve w.cwd p) (some (.file b)) ∧ (s2.error = s.error → n = data.length → (w2.event.fail = false) → (w1.event.fail = false) → b = data) := by
      intro ha
      have ha1 : Alone w1 := ha.drop ⟨1, by rw [h8, List.drop_one]⟩
      have ha2 : Alone w2 := ha.drop ⟨2, hd2⟩
      have hw1 : ({ w1 with errno := 0 } : World).event.others ({ w1 with errno := 0 } : World).tree = w1.tree := ha1.others
      rw [hw1, hat, h12, ha.others, extend_place, List.nil_append] at k7
      rw [ha2.others, hat2, hat, k7, extend_place] at j9
      refine ⟨_, ?_, j9, ?_⟩
      · rcases k8 with ⟨_, q2, _⟩ | ⟨_, q2, q3, _⟩
        · rw [q2]
          have : (if w2.event.fail = true then List.take (min w2.event.amount (([] : List Byte).length - 1)) [] else [] : List Byte) = [] := by
            split
            · rw [List.take_nil]
            · rfl
          rw [this, List.append_nil]
          exact List.take_prefix _ _
        · rw [q2]
          have hall : data.take k ++ data.drop k <+: data := by rw [List.take_append_drop]; exact List.prefix_rfl
          split
          · exact List.IsPrefix.trans ((List.prefix_append_right_inj _).2 (List.take_prefix _ _)) hall
          · exact hall
      · intro _ _ q1 q4
        rcases k8 with ⟨_, _, q5⟩ | ⟨_, q2, _, _⟩
        · change w1.event.fail = true at q5
          rw [q4] at q5; cases q5
        · rw [q1, q2, if_neg (by simp), List.take_append_drop]
    refine ⟨_, w3, rfl, ⟨j1, by rw [j3, k2, h5], by rw [j2, k1, h4], by omega, by rw [j7, k5, h7], ⟨3, hd3⟩⟩, ?_, ?_, ?_⟩
    · intro ha
      obtain ⟨b, h1, h2, _⟩ := htree ha
      exact Or.inr ⟨b, h1, h2⟩
    · intro ha hec
      dsimp only at hec ⊢
      by_cases hx : n ≠ data.length ∨ w2.errno ≠ 0 ∨ s2.error = true
      · rw [if_pos hx] at hec; exact absurd hec (hne _)
      · have hnl : n = data.length := Decidable.byContradiction fun hc => hx (Or.inl hc)
        have hse : s2.error = false := by
          cases hc : s2.error
          · rfl
          · exact absurd (Or.inr (Or.inr hc)) hx
        refine ⟨hnl, by rw [ha.others] at h11; exact h11, ?_⟩
        obtain ⟨b, g1, g2, g3⟩ := htree ha
        exact ⟨b, g1, g2, fun hnf => g3 (by rw [hse, h2]) hnl (hnf.drop ⟨2, hd2⟩).event (hnf.drop ⟨1, by rw [h8, List.drop_one]⟩).event⟩
    · intro hq hw
      have hq1 : Quiet w1 := hq.tail h8 (by rw [h9]; exact fun _ h => h)
      have h1f : w1.event.fail = false := hq1.event.2.1
      rcases k8 with ⟨_, _, q5⟩ | ⟨q1, _, q3, _, q5⟩
      · change w1.event.fail = true at q5
        rw [h1f] at q5; cases q5
      · have : ({ w1 with errno := 0 } : World).event.err = 0 := hq1.event.2.2
        rw [if_pos this] at q5
        dsimp only at q5 ⊢
        rw [if_neg (by rw [q1, q3, q5, h2]; simp)]

end Tm.File
