import Verif.File.Lemmas2

/-! Paths, and creating directories. -/

namespace Tm.File

/-! ## Paths -/

theorem parts_ne_nil (p : List Byte) : parts p ≠ [] := by
  cases p with
  | nil => simp [parts]
  | cons b p =>
    rw [parts]
    split
    · simp
    · split <;> simp

theorem parts_append (a b : List Byte) : parts (a ++ slash :: b) = parts a ++ parts b := by
  induction a with
  | nil => simp [parts]
  | cons c a ih =>
    rw [List.cons_append, parts, parts, ih]
    split
    · rfl
    · cases h : parts a with
      | nil => exact absurd h (parts_ne_nil a)
      | cons q qs => rfl

theorem parts_plain {p : List Byte} (h : slash ∉ p) : parts p = [p] := by
  induction p with
  | nil => rfl
  | cons b p ih =>
    have h1 : b ≠ slash := fun hx => h (by rw [hx]; simp)
    have h2 : slash ∉ p := fun hx => h (List.mem_cons_of_mem _ hx)
    rw [parts, if_neg h1, ih h2]

theorem names_append (a b : List Byte) : names (a ++ slash :: b) = names a ++ names b := by
  rw [names, parts_append, List.filter_append]; rfl

theorem names_nil : names [] = [] := rfl

/-- A part without slashes gives one name or none. -/
theorem names_plain {p : List Byte} (h : slash ∉ p) : names p = [] ∨ names p = [p] := by
  rw [names, parts_plain h, List.filter_cons, List.filter_nil]
  split
  · exact Or.inr rfl
  · exact Or.inl rfl

theorem strchr_none {p : List Byte} {n : Nat} (h : strchr p n = none) : slash ∉ p.drop n := by
  rw [strchr, Option.map_eq_none_iff, List.findIdx?_eq_none_iff] at h
  intro hx
  have := h _ hx
  simp at this

theorem strchr_some {p : List Byte} {n i : Nat} (h : strchr p n = some i) : n ≤ i ∧ i < p.length ∧ ∃ seg, slash ∉ seg ∧ p.drop n = seg ++ slash :: p.drop (i + 1) ∧ p.take i = p.take n ++ seg := by
  rw [strchr, Option.map_eq_some_iff] at h
  obtain ⟨k, hk, rfl⟩ := h
  rw [List.findIdx?_eq_some_iff_getElem] at hk
  obtain ⟨hl, h1, h2⟩ := hk
  rw [List.length_drop] at hl
  have hat : (p.drop n)[k]'(by rw [List.length_drop]; exact hl) = slash := by simpa using h1
  refine ⟨by omega, by omega, (p.drop n).take k, ?_, ?_, ?_⟩
  · intro hx
    obtain ⟨j, hj, hj2⟩ := List.mem_iff_getElem.1 hx
    rw [List.length_take] at hj
    rw [List.getElem_take] at hj2
    have := h2 j (by omega)
    rw [hj2] at this
    simp at this
  · have h3 := List.take_append_drop k (p.drop n)
    rw [List.drop_eq_getElem_cons (l := p.drop n) (i := k) (by rw [List.length_drop]; exact hl), hat, List.drop_drop] at h3
    rw [show n + k + 1 = n + (k + 1) by omega]
    exact h3.symm
  · rw [List.take_add]

/-! ## `mkdir` -/

/-- Making one directory. -/
theorem mkdir_spec (p : List Byte) (w : World) :
    Calm w (mkdir p w).2 ∧ (mkdir p w).2.plan = w.plan.tail ∧ (mkdir p w).2.allocs = w.allocs ∧
    (((mkdir p w).1 = true ∧ find (w.event.others w.tree) w.cwd p = .ok none ∧ (mkdir p w).2.tree = place (w.event.others w.tree) (resolve w.cwd p) (some .dir)) ∨
      ((mkdir p w).1 = false ∧ (mkdir p w).2.tree = w.event.others w.tree ∧ (w.event.fail = true ∨
        (∃ n, find (w.event.others w.tree) w.cwd p = .ok (some n) ∧ (mkdir p w).2.errno = EEXIST) ∨
        (∃ e, find (w.event.others w.tree) w.cwd p = .error e ∧ ((mkdir p w).2.errno = EEXIST ∨ (mkdir p w).2.errno = if e = 0 then w.errno else e))))) := by
  rw [mkdir]
  generalize hg : (fun t => match find t w.cwd p with
    | .error e => .error (if e = ENOTDIR ∧ walk t [] (resolve w.cwd p) = none then EEXIST else e)
    | .ok none => .ok ((), place t (resolve w.cwd p) (some .dir))
    | .ok (some _) => .error EEXIST : Tree → Except Errno (Unit × Tree)) = g
  dsimp only
  obtain ⟨hs, hp⟩ := plain_same w g
  refine ⟨plain_calm w g, hp, hs.allocs, ?_⟩
  rcases plain_cases w g with ⟨e, h1, h2, h3, h4⟩ | ⟨a, t, h1, h2, h3, h4, h5⟩
  · right
    refine ⟨by rw [h1]; rfl, h2, ?_⟩
    rcases h4 with ⟨h4, _⟩ | ⟨h4, h5⟩
    · exact Or.inl h4
    · right
      rw [← hg] at h5
      dsimp only at h5
      revert h5
      cases hfi : find (w.event.others w.tree) w.cwd p with
      | error e' =>
        dsimp only
        intro h5
        injection h5 with h5
        right
        refine ⟨e', rfl, ?_⟩
        rw [h3, ← h5]
        split
        · left; rfl
        · right; rfl
      | ok o =>
        cases o with
        | none => intro h5; cases h5
        | some n =>
          intro h5
          injection h5 with h5
          left
          refine ⟨n, rfl, ?_⟩
          rw [h3, ← h5]
          rfl
  · left
    rw [← hg] at h5
    dsimp only at h5
    revert h5
    cases hfi : find (w.event.others w.tree) w.cwd p with
    | error e' => intro h5; cases h5
    | ok o =>
      cases o with
      | none =>
        intro h5
        injection h5 with h5
        injection h5 with _ h5
        exact ⟨by rw [h1]; rfl, rfl, by rw [h2, h5]⟩
      | some n => intro h5; cases h5

theorem Grows.rfl {t : Tree} : Grows t t := fun _ => Or.inl (Eq.refl _)

theorem Grows.trans {a b c : Tree} (h : Grows a b) (g : Grows b c) : Grows a c := by
  intro q
  rcases h q with h1 | ⟨h1, h2⟩ <;> rcases g q with g1 | ⟨g1, g2⟩
  · exact Or.inl (g1.trans h1)
  · exact Or.inr ⟨h1 ▸ g1, g2⟩
  · exact Or.inr ⟨h1, g1.trans h2⟩
  · rw [g1] at h2; cases h2

theorem find_none {t : Tree} {cwd : List (List Byte)} {p : List Byte} (h : find t cwd p = .ok none) : t (resolve cwd p) = none := by
  rw [find] at h
  by_cases hp : p = []
  · rw [if_pos hp] at h; cases h
  · rw [if_neg hp] at h
    cases hw : walk t [] (resolve cwd p) with
    | some e => rw [hw] at h; cases h
    | none =>
      rw [hw] at h
      dsimp only at h
      cases ht : t (resolve cwd p) with
      | none => rfl
      | some n =>
        rw [ht] at h
        cases n <;> dsimp only at h <;> first | (split at h <;> cases h) | cases h

theorem find_some {t : Tree} {cwd : List (List Byte)} {p : List Byte} {n : Node} (h : find t cwd p = .ok (some n)) : t (resolve cwd p) = some n := by
  rw [find] at h
  by_cases hp : p = []
  · rw [if_pos hp] at h; cases h
  · rw [if_neg hp] at h
    cases hw : walk t [] (resolve cwd p) with
    | some e => rw [hw] at h; cases h
    | none =>
      rw [hw] at h
      dsimp only at h
      cases ht : t (resolve cwd p) with
      | none => rw [ht] at h; cases h
      | some m =>
        rw [ht] at h
        cases m with
        | dir => injection h
        | file b => dsimp only at h; split at h <;> first | (cases h; done) | injection h
        | other => dsimp only at h; split at h <;> first | (cases h; done) | injection h

theorem mkdir_grows (p : List Byte) (w : World) (ha : Alone w) : Grows w.tree (mkdir p w).2.tree := by
  rcases (mkdir_spec p w).2.2.2 with ⟨_, h1, h2⟩ | ⟨_, h2, _⟩
  · rw [h2]
    rw [ha.others] at h1 ⊢
    intro q
    by_cases hq : q = resolve w.cwd p
    · right
      rw [hq, place_same]
      exact ⟨find_none h1, rfl⟩
    · left
      rw [place_ne _ _ hq]
  · rw [h2, ha.others]
    exact Grows.rfl

theorem createSingle_snd (p : List Byte) (w : World) : (createSingle p w).2 = (mkdir p w).2 := by
  rw [createSingle]
  generalize mkdir p w = r
  obtain ⟨r1, r2⟩ := r
  cases r1 <;> rfl

theorem createLoop_calm (p : List Byte) : ∀ (fuel : Nat) (e : Option Nat) (w : World), (∀ i, e = some i → i < p.length ∧ p.length ≤ i + fuel) → (e = none → 0 < fuel) →
    ∃ ec w', createLoop fuel p e w = .ok (ec, w') ∧ Calm w w' ∧ w'.allocs = w.allocs ∧ (Alone w → Grows w.tree w'.tree)
  | 0, e, w, h1, h2 => by
    cases e with
    | none => exact absurd (h2 rfl) (by omega)
    | some i => have := h1 i rfl; omega
  | fuel + 1, e, w, h1, h2 => by
    rw [createLoop.eq_def]
    dsimp only
    obtain ⟨s1, _, s2, _⟩ := mkdir_spec (cutAt p e) w
    have hs := createSingle_snd (cutAt p e) w
    have hg := mkdir_grows (cutAt p e) w
    generalize mkdir (cutAt p e) w = m at s1 s2 hs hg
    generalize createSingle (cutAt p e) w = r at hs ⊢
    obtain ⟨r1, r2⟩ := r
    dsimp only at hs ⊢
    subst hs
    by_cases h0 : r1 ≠ 0
    · rw [if_pos h0]
      exact ⟨r1, m.2, rfl, s1, s2, hg⟩
    · rw [if_neg h0]
      cases e with
      | none => exact ⟨r1, m.2, rfl, s1, s2, hg⟩
      | some i =>
        dsimp only
        by_cases hl : i + 1 = p.length
        · rw [if_pos hl]
          exact ⟨r1, m.2, rfl, s1, s2, hg⟩
        · rw [if_neg hl]
          have hi := h1 i rfl
          obtain ⟨ec, w', e1, k1, k2, k3⟩ := createLoop_calm p fuel (strchr p (i + 1)) m.2
            (fun j hj => by obtain ⟨q1, q2, _⟩ := strchr_some hj; omega) (fun _ => by omega)
          exact ⟨ec, w', e1, s1.trans k1, k2.trans s2, fun ha => (hg ha).trans (k3 (ha.drop s1.plan))⟩

theorem stat_calm (p : List Byte) (w : World) : Calm w (stat p w).2 ∧ (stat p w).2.allocs = w.allocs ∧ (stat p w).2.tree = w.event.others w.tree := by
  rw [stat]
  obtain ⟨hs, hp⟩ := plain_same w (statOf w.cwd p)
  refine ⟨plain_calm _ _, hs.allocs, ?_⟩
  rcases plain_cases w (statOf w.cwd p) with ⟨e, h1, h2, h3, h4⟩ | ⟨a, t, h1, h2, h3, h4, h5⟩
  · exact h2
  · rw [h2]
    rw [statOf] at h5
    split at h5
    · cases h5
    · cases h5
    · injection h5 with h; injection h with _ h; exact h.symm

theorem existsOf_snd (is : Node → Bool) (r : Option Node × World) : (existsOf is r).2 = r.2 := by
  obtain ⟨r1, r2⟩ := r
  cases r1 <;> rfl

/-- What `tmu_file_exists` and `tmu_directory_exists` answer. -/
theorem existsOf_stat (is : Node → Bool) (p : List Byte) (w : World) (hf : w.event.fail = false) :
    (existsOf is (stat p w)).1 = match find (w.event.others w.tree) w.cwd p with
      | .ok (some n) => ⟨is n, 0⟩
      | .ok none => ⟨false, 0⟩
      | .error e => if (if e = 0 then w.errno else e) = ENOENT ∨ (if e = 0 then w.errno else e) = ENOTDIR then ⟨false, 0⟩ else ⟨false, if e = 0 then w.errno else e⟩ := by
  rw [stat, World.plain, if_neg (by rw [hf]; simp)]
  have : w.start.tree = w.event.others w.tree := rfl
  rw [this, statOf]
  cases hfi : find (w.event.others w.tree) w.cwd p with
  | error e => rfl
  | ok o => cases o <;> rfl

/-- The errors of looking up a path. -/
theorem find_error {t : Tree} {cwd : List (List Byte)} {p : List Byte} {e : Errno} (h : find t cwd p = .error e) : e = ENOENT ∨ e = ENOTDIR := by
  have hwalk : ∀ (rest pre : List (List Byte)) (e : Errno), walk t pre rest = some e → e = ENOENT ∨ e = ENOTDIR := by
    intro rest
    induction rest with
    | nil => intro pre e h; cases h
    | cons x rest ih =>
      intro pre e h
      rw [walk] at h
      split at h
      · exact ih _ _ h
      · injection h with h; exact Or.inr h.symm
      · injection h with h; exact Or.inl h.symm
  rw [find] at h
  split at h
  · injection h with h; exact Or.inl h.symm
  · split at h
    · next e' hw => injection h with h; subst h; exact hwalk _ _ _ hw
    · split at h
      · cases h
      · split at h
        · injection h with h; exact Or.inr h.symm
        · cases h
      · cases h

theorem existsOf_stat' (is : Node → Bool) (p : List Byte) (w : World) (hf : w.event.fail = false) :
    (existsOf is (stat p w)).1 = match find (w.event.others w.tree) w.cwd p with
      | .ok (some n) => ⟨is n, 0⟩
      | _ => ⟨false, 0⟩ := by
  rw [existsOf_stat is p w hf]
  cases hfi : find (w.event.others w.tree) w.cwd p with
  | error e =>
    rcases find_error hfi with rfl | rfl <;> rfl
  | ok o => cases o <;> rfl

theorem toPlatformPath_cases (p : List Byte) (w : World) :
    (∃ w', toPlatformPath p w = (none, w') ∧ Calm w w' ∧ w'.tree = w.tree ∧ w'.plan = w.plan ∧ false ∈ w.allocs ∧ (∀ a ∈ w'.allocs, a ∈ w.allocs)) ∨
    (toPlatformPath p w = (some none, w) ∧ p.length < 260) ∨
    (∃ w', toPlatformPath p w = (some (some w.next), w') ∧ 260 ≤ p.length ∧ w'.blocks = w.next :: w.blocks ∧ w'.next = w.next + 1 ∧ w'.streams = w.streams ∧ w'.dirs = w.dirs ∧
      w'.tree = w.tree ∧ w'.plan = w.plan ∧ w'.cwd = w.cwd ∧ w'.errno = w.errno ∧ (∀ a ∈ w'.allocs, a ∈ w.allocs)) := by
  rw [toPlatformPath]
  by_cases h : p.length < sboSize
  · rw [if_pos h]
    exact Or.inr (Or.inl ⟨rfl, h⟩)
  · rw [if_neg h]
    rcases malloc_cases w with ⟨w2, e2, m1, m2, m3, m4, m5, m6, m7, m8, m9, m10, _⟩ | ⟨w2, e2, m1, m2, m3, m4, m5, m6, m7, m8, m9, m10, _, m11⟩
    · rw [e2]
      exact Or.inr (Or.inr ⟨w2, rfl, Nat.le_of_not_lt h, m1, m2, m3, m4, m7, m6, m8, m9, fun a ha => List.mem_of_mem_tail (m10 ▸ ha)⟩)
    · rw [e2]
      exact Or.inl ⟨w2, rfl, ⟨m3, m4, m1, Nat.le_of_eq m2.symm, m8, ⟨0, by rw [m6, List.drop_zero]⟩⟩, m7, m6, m11, fun a ha => List.mem_of_mem_tail (m10 ▸ ha)⟩

/-- Whatever happens in between, a copy of a path is given back. -/
theorem copied {α : Type} (p : List Byte) (w : World) (refused : α) (P : World → α → World → Prop) (run : World → C (α × World))
    (hrun : ∀ v : World, v.tree = w.tree → v.plan = w.plan → v.cwd = w.cwd → v.streams = w.streams → v.dirs = w.dirs → w.next ≤ v.next → (∀ a ∈ v.allocs, a ∈ w.allocs) →
      (∀ b ∈ v.blocks, b ∈ w.blocks ∨ b < v.next) → v.errno = w.errno →
      ∃ r v', run v = .ok (r, v') ∧ Calm v v' ∧ P v r v')
    (hP : ∀ v r v' bs, P v r v' → P v r { v' with blocks := bs })
    (Q : α → World → Prop) (hQ : ∀ v r v', v.tree = w.tree → v.plan = w.plan → v.cwd = w.cwd → (∀ a ∈ v.allocs, a ∈ w.allocs) → v.errno = w.errno → P v r v' → Q r v')
    (hrefused : ∀ w', false ∈ w.allocs → Calm w w' → w'.tree = w.tree → (∀ a ∈ w'.allocs, a ∈ w.allocs) → Q refused w') :
    ∃ r w', (match toPlatformPath p w with
      | (none, w) => .ok (refused, w)
      | (some b, w) => do
        let (r, w) ← run w
        let w ← destroyPath b w
        .ok (r, w) : C (α × World)) = .ok (r, w') ∧ Calm w w' ∧ Q r w' := by
  rcases toPlatformPath_cases p w with ⟨w1, e1, h1, h2, h3, h4, h5⟩ | ⟨e1, _⟩ | ⟨w1, e1, _, h1, h2, h3, h4, h5, h6, h7, h8, h9⟩
  · rw [e1]
    exact ⟨refused, w1, rfl, h1, hrefused w1 h4 h1 h2 h5⟩
  · rw [e1]
    dsimp only
    obtain ⟨r, v', e2, k1, k2⟩ := hrun w rfl rfl rfl rfl rfl (Nat.le_refl _) (fun _ h => h) (fun _ h => Or.inl h) rfl
    rw [e2, ok_bind]
    exact ⟨r, v', rfl, k1, hQ w r v' rfl rfl rfl (fun _ h => h) rfl k2⟩
  · rw [e1]
    dsimp only
    obtain ⟨r, v', e2, k1, k2⟩ := hrun w1 h5 h6 h7 h3 h4 (by omega) h9 (fun b hb => by
      rw [h1] at hb
      rcases List.mem_cons.1 hb with rfl | hb
      · right; omega
      · left; exact hb) h8
    rw [e2, ok_bind]
    dsimp only
    rw [destroyPath, free_head (bs := w.blocks) (by rw [k1.blocks, h1]), ok_bind]
    refine ⟨r, _, rfl, ⟨by show v'.streams = _; rw [k1.streams, h3], by show v'.dirs = _; rw [k1.dirs, h4], rfl, ?_, by show v'.cwd = _; rw [k1.cwd, h7], ?_⟩, ?_⟩
    · show w.next ≤ v'.next
      have := k1.next
      omega
    · obtain ⟨n, hn⟩ := k1.plan
      exact ⟨n, by show v'.plan = _; rw [hn, h6]⟩
    · exact hQ w1 r _ h5 h6 h7 h9 h8 (hP _ _ _ _ k2)

/-! ## What directories are created -/

theorem walk_none {t : Tree} : ∀ (rest pre : List (List Byte)), (∀ q, q <+: pre ++ rest → q ≠ pre ++ rest → t q = some .dir) → walk t pre rest = none
  | [], _, _ => rfl
  | x :: rest, pre, h => by
    have hne : pre ≠ pre ++ x :: rest := by
      intro hx
      have := congrArg List.length hx
      rw [List.length_append, List.length_cons] at this
      omega
    rw [walk, h pre (List.prefix_append _ _) hne]
    exact walk_none rest (pre ++ [x]) (by rw [List.append_assoc]; exact h)

theorem find_ok {t : Tree} {cwd : List (List Byte)} {p : List Byte} (hp : p ≠ []) (h : ∀ q, q <+: resolve cwd p → q ≠ resolve cwd p → t q = some .dir)
    (hn : t (resolve cwd p) = none ∨ t (resolve cwd p) = some .dir) : find t cwd p = .ok (t (resolve cwd p)) := by
  rw [find, if_neg hp, walk_none (resolve cwd p) [] h]
  rcases hn with hn | hn <;> rw [hn]

theorem made_concat {t : Tree} {l : List (List Byte)} {n : List Byte} : place (made t l) (l ++ [n]) (some .dir) = made t (l ++ [n]) := by
  funext q
  rw [place, made, made]
  by_cases h : q = l ++ [n]
  · rw [if_pos h, if_pos (by rw [h]; exact List.prefix_rfl)]
  · rw [if_neg h]
    by_cases h2 : q <+: l
    · rw [if_pos h2, if_pos (h2.trans (List.prefix_append _ _))]
    · rw [if_neg h2, if_neg]
      intro hx
      rcases List.prefix_concat_iff.1 hx with hx | hx
      · exact h hx
      · exact h2 hx

theorem made_same {t : Tree} {l : List (List Byte)} {n : List Byte} (h : t (l ++ [n]) = some .dir) : made t l = made t (l ++ [n]) := by
  funext q
  rw [made, made]
  by_cases h2 : q <+: l
  · rw [if_pos h2, if_pos (h2.trans (List.prefix_append _ _))]
  · rw [if_neg h2]
    split
    · next hx =>
      rcases List.prefix_concat_iff.1 hx with hx | hx
      · rw [hx, h]
      · exact absurd hx h2
    · rfl

/-- One step of creating directories. -/
theorem createSingle_spec {t : Tree} {p : List Byte} {w : World} {l x : List (List Byte)} (hq : Quiet w) (hp : p ≠ []) (hr : resolve w.cwd p = l ++ x) (hx : x = [] ∨ ∃ n, x = [n])
    (ht : w.tree = made t l) (hc : t (l ++ x) = none ∨ t (l ++ x) = some .dir) :
    (createSingle p w).1 = 0 ∧ (createSingle p w).2.tree = made t (l ++ x) := by
  have hpre : ∀ q, q <+: resolve w.cwd p → q ≠ resolve w.cwd p → w.tree q = some .dir := by
    intro q h1 h2
    rw [hr] at h1 h2
    rw [ht, made, if_pos]
    rcases hx with rfl | ⟨n, rfl⟩
    · rw [List.append_nil] at h1; exact h1
    · rcases List.prefix_concat_iff.1 h1 with h1 | h1
      · exact absurd h1 h2
      · exact h1
  have hat : w.tree (resolve w.cwd p) = none ∨ w.tree (resolve w.cwd p) = some .dir := by
    rw [ht, made, hr]
    split
    · exact Or.inr rfl
    · exact hc
  have hfind := find_ok hp hpre hat
  obtain ⟨q1, q2, q3⟩ := hq.event
  have hspec := (mkdir_spec p w).2.2.2
  have hs := createSingle_snd p w
  rw [hq.alone.others] at hspec
  rw [createSingle] at hs ⊢
  generalize hm : mkdir p w = m at hspec hs ⊢
  obtain ⟨m1, m2⟩ := m
  dsimp only at hspec hs
  rw [hfind] at hspec
  rcases hspec with ⟨rfl, g1, g2⟩ | ⟨rfl, g1, g2⟩
  · refine ⟨rfl, ?_⟩
    dsimp only
    injection g1 with g1
    rw [g2, hr, ht]
    rcases hx with rfl | ⟨n, rfl⟩
    · rw [ht, made, hr, List.append_nil, if_pos List.prefix_rfl] at g1
      cases g1
    · exact made_concat
  · rcases g2 with g2 | ⟨n, g2, g3⟩ | ⟨e, g2, _⟩
    · rw [q2] at g2; cases g2
    · dsimp only
      refine ⟨by rw [g3]; rfl, ?_⟩
      rw [g1, ht]
      rcases hx with rfl | ⟨n', rfl⟩
      · rw [List.append_nil]
      · injection g2 with g2
        refine made_same ?_
        rcases hc with hc | hc
        · rw [ht, made, hr] at g2
          rw [if_neg, hc] at g2
          · cases g2
          · intro h
            have := h.length_le
            rw [List.length_append, List.length_singleton] at this
            omega
        · exact hc
    · cases g2

/-- All steps. -/
theorem createLoop_spec {t : Tree} {p : List Byte} (hrel : p.head? ≠ some slash) : ∀ (fuel : Nat) (e : Option Nat) (w : World) (prev : List (List Byte)), Quiet w →
    (∀ i, e = some i → i < p.length ∧ 0 < i ∧ p.length ≤ i + fuel ∧ p = p.take i ++ slash :: p.drop (i + 1)) → (e = none → 0 < fuel) → p ≠ [] →
    (∃ x, names (cutAt p e) = prev ++ x ∧ (x = [] ∨ ∃ n, x = [n])) → w.tree = made t (w.cwd ++ prev) →
    (∀ q, q <+: w.cwd ++ names p → t q = none ∨ t q = some .dir) →
    ∃ w', createLoop fuel p e w = .ok (0, w') ∧ w'.tree = made t (w.cwd ++ names p)
  | 0, e, w, _, _, h1, h2, _, _, _, _ => by
    cases e with
    | none => exact absurd (h2 rfl) (by omega)
    | some i => have := h1 i rfl; omega
  | fuel + 1, e, w, prev, hq, h1, h2, hne, ⟨x, hx1, hx2⟩, ht, hc => by
    rw [createLoop.eq_def]
    dsimp only
    have hcut : cutAt p e ≠ [] ∧ (cutAt p e).head? = p.head? ∧ names (cutAt p e) <+: names p := by
      cases e with
      | none => exact ⟨hne, rfl, List.prefix_rfl⟩
      | some i =>
        obtain ⟨g1, g2, _, g3⟩ := h1 i rfl
        refine ⟨?_, ?_, ?_⟩
        · intro h
          have := congrArg List.length h
          rw [cutAt, List.length_take, List.length_nil] at this
          omega
        · rw [cutAt, List.head?_take, if_neg (by omega)]
        · rw [cutAt]
          conv => rhs; rw [g3, names_append]
          exact List.prefix_append _ _
    have hres : resolve w.cwd (cutAt p e) = (w.cwd ++ prev) ++ x := by
      rw [resolve, if_neg (by rw [hcut.2.1]; exact hrel), hx1, List.append_assoc]
    have hcl : t ((w.cwd ++ prev) ++ x) = none ∨ t ((w.cwd ++ prev) ++ x) = some .dir := by
      refine hc _ ?_
      rw [List.append_assoc, ← hx1]
      exact (List.prefix_append_right_inj _).2 hcut.2.2
    obtain ⟨k1, k2⟩ := createSingle_spec hq hcut.1 hres hx2 ht hcl
    obtain ⟨s1, _, s2, _⟩ := mkdir_spec (cutAt p e) w
    have hs := createSingle_snd (cutAt p e) w
    generalize mkdir (cutAt p e) w = m at s1 s2 hs
    generalize createSingle (cutAt p e) w = r at hs k1 k2 ⊢
    obtain ⟨r1, r2⟩ := r
    dsimp only at hs k1 k2 ⊢
    subst hs k1
    rw [if_neg (by simp)]
    rw [List.append_assoc, ← hx1] at k2
    cases e with
    | none => exact ⟨m.2, rfl, k2⟩
    | some i =>
      dsimp only
      obtain ⟨g1, g2, g3, g4⟩ := h1 i rfl
      have hnp : names p = names (cutAt p (some i)) ++ names (p.drop (i + 1)) := by
        conv => lhs; rw [g4, names_append]
        rfl
      by_cases hl : i + 1 = p.length
      · rw [if_pos hl]
        refine ⟨m.2, rfl, ?_⟩
        rw [k2, hnp, hl, List.drop_length, names_nil, List.append_nil]
      · rw [if_neg hl]
        rw [← s1.cwd] at k2 hc ⊢
        refine createLoop_spec hrel fuel (strchr p (i + 1)) m.2 (names (cutAt p (some i))) (hq.drop s1.plan (by rw [s2]; exact fun _ h => h)) ?_ (fun _ => by omega) hne ?_ k2 hc
        · intro j hj
          obtain ⟨q1, q2, seg, q3, q4, q5⟩ := strchr_some hj
          refine ⟨q2, by omega, by omega, ?_⟩
          rw [q5, List.append_assoc, ← q4, List.take_append_drop]
        · cases hj : strchr p (i + 1) with
          | none =>
            refine ⟨names (p.drop (i + 1)), hnp, ?_⟩
            rcases names_plain (strchr_none hj) with h | h
            · exact Or.inl h
            · exact Or.inr ⟨_, h⟩
          | some j =>
            obtain ⟨q1, q2, seg, q3, q4, q5⟩ := strchr_some hj
            refine ⟨names seg, ?_, ?_⟩
            · have : p.take (i + 1) = p.take i ++ [slash] := by
                conv => lhs; rw [g4]
                rw [List.take_append, List.take_of_length_le (by rw [List.length_take]; omega), List.length_take, Nat.min_eq_left (by omega), Nat.add_sub_cancel_left]
                rfl
              show names (p.take j) = names (p.take i) ++ names seg
              rw [q5, this, List.append_assoc]
              exact names_append _ _
            · rcases names_plain q3 with h | h
              · exact Or.inl h
              · exact Or.inr ⟨_, h⟩

end Tm.File
