import Verif.File.Props

/-! Deleting and renaming. -/

namespace Tm.File

theorem plain_bool {α : Type} (w : World) (f : Tree → Except Errno (α × Tree)) :
    ((w.plain f).1.isSome = true ∧ w.event.fail = false ∧ ∃ a, f (w.event.others w.tree) = .ok (a, (w.plain f).2.tree)) ∨
    ((w.plain f).1.isSome = false ∧ (w.plain f).2.tree = w.event.others w.tree ∧ (w.event.fail = true ∨ ∃ e, f (w.event.others w.tree) = .error e)) := by
  rcases plain_cases w f with ⟨e, h1, h2, h3, h4⟩ | ⟨a, t, h1, h2, h3, h4, h5⟩
  · right
    refine ⟨by rw [h1]; rfl, h2, ?_⟩
    rcases h4 with ⟨h4, _⟩ | ⟨_, h4⟩
    · exact Or.inl h4
    · exact Or.inr ⟨e, h4⟩
  · left
    exact ⟨by rw [h1]; rfl, h4, a, by rw [h2]; exact h5⟩

/-! ## C223: deleting -/

theorem remove_spec (p : List Byte) (w : World) (ha : Alone w) :
    ((remove p w).1 = true ∧ w.event.fail = false ∧ (remove p w).2.tree = place w.tree (resolve w.cwd p) none ∧
      ∃ n, find w.tree w.cwd p = .ok (some n) ∧ (n = .dir → Empty w.tree (resolve w.cwd p))) ∨
    ((remove p w).1 = false ∧ (remove p w).2.tree = w.tree ∧ (w.event.fail = true ∨ ∀ n, find w.tree w.cwd p = .ok (some n) → n = .dir ∧ ¬ Empty w.tree (resolve w.cwd p))) := by
  rw [remove]
  dsimp only
  generalize hg : (fun t => match find t w.cwd p with
    | .error e => .error e
    | .ok none => .error ENOENT
    | .ok (some .dir) => (haveI := Classical.propDecidable; if Empty t (resolve w.cwd p) then .ok ((), place t (resolve w.cwd p) none) else .error ENOTEMPTY)
    | .ok (some _) => .ok ((), place t (resolve w.cwd p) none) : Tree → Except Errno (Unit × Tree)) = g
  have hx : ∀ t, g t = match find t w.cwd p with
    | .error e => .error e
    | .ok none => .error ENOENT
    | .ok (some .dir) => (haveI := Classical.propDecidable; if Empty t (resolve w.cwd p) then .ok ((), place t (resolve w.cwd p) none) else .error ENOTEMPTY)
    | .ok (some _) => .ok ((), place t (resolve w.cwd p) none) := fun t => by rw [← hg]
  have hb := plain_bool w g
  rw [ha.others, hx] at hb
  rcases hb with ⟨h1, h2, a, h3⟩ | ⟨h1, h2, h3⟩
  · left
    refine ⟨h1, h2, ?_⟩
    generalize (w.plain g).2.tree = t at h3 ⊢
    cases hf : find w.tree w.cwd p with
    | error e => rw [hf] at h3; cases h3
    | ok o =>
      cases o with
      | none => rw [hf] at h3; cases h3
      | some n =>
        rw [hf] at h3
        cases n with
        | dir =>
          dsimp only at h3
          split at h3
          · next he =>
            injection h3 with h3
            injection h3 with _ h3
            exact ⟨h3.symm, .dir, rfl, fun _ => he⟩
          · cases h3
        | file b =>
          injection h3 with h3
          injection h3 with _ h3
          exact ⟨h3.symm, .file b, rfl, fun h => (by cases h)⟩
        | other =>
          injection h3 with h3
          injection h3 with _ h3
          exact ⟨h3.symm, .other, rfl, fun h => (by cases h)⟩
  · right
    refine ⟨h1, h2, ?_⟩
    rcases h3 with h3 | ⟨e, h3⟩
    · exact Or.inl h3
    · right
      intro n hn
      rw [hn] at h3
      cases n with
      | dir =>
        dsimp only at h3
        split at h3
        · cases h3
        · next he => exact ⟨rfl, he⟩
      | file b => cases h3
      | other => cases h3

theorem remove_calm (p : List Byte) (w : World) : Calm w (remove p w).2 ∧ (remove p w).2.allocs = w.allocs := ⟨plain_calm _ _, (plain_same _ _).1.allocs⟩

theorem errnoOrIo_ne (w : World) : errnoOrIo w ≠ 0 := by
  intro h
  rw [errnoOrIo] at h
  split at h
  · next h1 => exact h1 h
  · exact absurd h (by decide)

theorem deleteFile_snd (p : List Byte) (w : World) : (deleteFile p w).2 = (remove p w).2 ∧ ((deleteFile p w).1 = 0 ↔ (remove p w).1 = true) := by
  rw [deleteFile]
  generalize remove p w = r
  obtain ⟨r1, r2⟩ := r
  cases r1
  · exact ⟨rfl, fun h => absurd h (errnoOrIo_ne _), fun h => (by cases h)⟩
  · exact ⟨rfl, fun _ => rfl, fun _ => rfl⟩

/-- If `tmu_delete_file` succeeds, what the path leads to is gone, and nothing else is changed; if it does not, nothing is changed. That holds whichever
calls fail. -/
theorem C223_deleted (p : List Byte) (w : World) (ha : Alone w) :
    ((deleteFile p w).1 = 0 → (∃ n, find w.tree w.cwd p = .ok (some n)) ∧ (deleteFile p w).2.tree = place w.tree (resolve w.cwd p) none) ∧
    ((deleteFile p w).1 ≠ 0 → (deleteFile p w).2.tree = w.tree) := by
  obtain ⟨h1, h2⟩ := deleteFile_snd p w
  rw [h1]
  rcases remove_spec p w ha with ⟨g1, _, g2, n, g3, _⟩ | ⟨g1, g2, _⟩
  · exact ⟨fun _ => ⟨⟨n, g3⟩, g2⟩, fun h => absurd (h2.2 g1) h⟩
  · exact ⟨fun h => absurd (h2.1 h) (by rw [g1]; simp), fun _ => g2⟩

/-- When nothing goes wrong, a file that is there is deleted. -/
theorem C223_succeeds (p : List Byte) (w : World) (hq : Quiet w) (b : List Byte) (h : find w.tree w.cwd p = .ok (some (.file b))) : (deleteFile p w).1 = 0 := by
  obtain ⟨_, h2⟩ := deleteFile_snd p w
  rcases remove_spec p w hq.alone with ⟨g1, _⟩ | ⟨_, _, g3⟩
  · exact h2.2 g1
  · rcases g3 with g3 | g3
    · rw [hq.event.2.1] at g3; cases g3
    · exact absurd (g3 _ h).1 (by simp)

example : find demo.tree demo.cwd [lf] = .ok (some (.file [1, 2, 3])) ∧ place demo.tree (resolve demo.cwd [lf]) none [[la], [lf]] = none ∧
    place demo.tree (resolve demo.cwd [lf]) none [[la]] = some .dir := by decide

/-- A world with an empty directory `x` in `/a`. -/
def demoDir : World := { demo with tree := place demoTree [[la], [lx]] (some .dir) }

theorem demoDir_empty : Empty demoDir.tree [[la], [lx]] := by
  intro q h1 h2
  obtain ⟨r, rfl⟩ := h1
  cases r with
  | nil => exact absurd (List.append_nil _) h2
  | cons x r =>
    show place demoTree [[la], [lx]] (some .dir) ([[la], [lx]] ++ x :: r) = none
    rw [place, if_neg h2, demoTree, if_neg (by simp), if_neg (by simp), if_neg (by simp)]

/-- C223 fails: `tmu_delete_file` also deletes a directory, if it is empty. -/
theorem C223_not_directory : ∃ w : World, Quiet w ∧ find w.tree w.cwd [lx] = .ok (some .dir) ∧ (deleteFile [lx] w).1 = 0 ∧ find (deleteFile [lx] w).2.tree w.cwd [lx] = .ok none := by
  have hq : Quiet demoDir := ⟨demo_quiet.calls, demo_quiet.allocs⟩
  have hd : find demoDir.tree demoDir.cwd [lx] = .ok (some .dir) := by decide
  obtain ⟨h1, h2⟩ := deleteFile_snd [lx] demoDir
  refine ⟨demoDir, hq, hd, ?_⟩
  rcases remove_spec [lx] demoDir hq.alone with ⟨g1, _, g2, _⟩ | ⟨_, _, g3⟩
  · refine ⟨h2.2 g1, ?_⟩
    rw [h1, g2]
    decide
  · rcases g3 with g3 | g3
    · exact absurd g3 (by decide)
    · refine absurd ?_ (g3 _ hd).2
      have : resolve demoDir.cwd [lx] = [[la], [lx]] := by decide
      rw [this]
      exact demoDir_empty

/-- Part of C223: a file is deleted by `tmu_delete_file` and nothing that is not a file, if there is no empty directory. Missing: empty directories. -/
theorem C223_file_partial (p : List Byte) (w : World) (ha : Alone w) (hd : find w.tree w.cwd p = .ok (some .dir) → ¬ Empty w.tree (resolve w.cwd p)) (h : (deleteFile p w).1 = 0) :
    ∃ n, find w.tree w.cwd p = .ok (some n) ∧ n ≠ .dir := by
  obtain ⟨_, h2⟩ := deleteFile_snd p w
  rcases remove_spec p w ha with ⟨_, _, _, n, g3, g4⟩ | ⟨g1, _⟩
  · refine ⟨n, g3, fun hn => ?_⟩
    subst hn
    exact hd g3 (g4 rfl)
  · rw [h2, g1] at h; cases h

theorem rmdir_spec (p : List Byte) (w : World) (ha : Alone w) :
    ((rmdir p w).1 = true ∧ w.event.fail = false ∧ (rmdir p w).2.tree = place w.tree (resolve w.cwd p) none ∧ find w.tree w.cwd p = .ok (some .dir) ∧ Empty w.tree (resolve w.cwd p)) ∨
    ((rmdir p w).1 = false ∧ (rmdir p w).2.tree = w.tree ∧ (w.event.fail = true ∨ ¬ (find w.tree w.cwd p = .ok (some .dir) ∧ Empty w.tree (resolve w.cwd p)))) := by
  rw [rmdir]
  dsimp only
  generalize hg : (fun t => match find t w.cwd p with
    | .error e => .error e
    | .ok none => .error ENOENT
    | .ok (some .dir) => (haveI := Classical.propDecidable; if Empty t (resolve w.cwd p) then .ok ((), place t (resolve w.cwd p) none) else .error ENOTEMPTY)
    | .ok (some _) => .error ENOTDIR : Tree → Except Errno (Unit × Tree)) = g
  have hx : ∀ t, g t = match find t w.cwd p with
    | .error e => .error e
    | .ok none => .error ENOENT
    | .ok (some .dir) => (haveI := Classical.propDecidable; if Empty t (resolve w.cwd p) then .ok ((), place t (resolve w.cwd p) none) else .error ENOTEMPTY)
    | .ok (some _) => .error ENOTDIR := fun t => by rw [← hg]
  have hb := plain_bool w g
  rw [ha.others, hx] at hb
  rcases hb with ⟨h1, h2, a, h3⟩ | ⟨h1, h2, h3⟩
  · left
    refine ⟨h1, h2, ?_⟩
    generalize (w.plain g).2.tree = t at h3 ⊢
    cases hf : find w.tree w.cwd p with
    | error e => rw [hf] at h3; cases h3
    | ok o =>
      cases o with
      | none => rw [hf] at h3; cases h3
      | some n =>
        rw [hf] at h3
        cases n with
        | dir =>
          dsimp only at h3
          split at h3
          · next he =>
            injection h3 with h3
            injection h3 with _ h3
            exact ⟨h3.symm, rfl, he⟩
          · cases h3
        | file b => cases h3
        | other => cases h3
  · right
    refine ⟨h1, h2, ?_⟩
    rcases h3 with h3 | ⟨e, h3⟩
    · exact Or.inl h3
    · right
      rintro ⟨hn, he⟩
      rw [hn] at h3
      dsimp only at h3
      rw [if_pos he] at h3
      cases h3

theorem deleteDirectory_snd (p : List Byte) (w : World) : (deleteDirectory p w).2 = (rmdir p w).2 ∧ ((rmdir p w).1 = true → (deleteDirectory p w).1 = 0) ∧
    ((rmdir p w).1 = false → (deleteDirectory p w).1 = (rmdir p w).2.errno) := by
  rw [deleteDirectory]
  generalize rmdir p w = r
  obtain ⟨r1, r2⟩ := r
  cases r1
  · exact ⟨rfl, fun h => (by cases h), fun _ => rfl⟩
  · exact ⟨rfl, fun _ => rfl, fun h => (by cases h)⟩

theorem rmdir_errno (p : List Byte) (w : World) (hh : Honest w) (h : (rmdir p w).1 = false) : (rmdir p w).2.errno ≠ 0 := by
  rw [rmdir] at h ⊢
  dsimp only at h ⊢
  generalize hg : (fun t => match find t w.cwd p with
    | .error e => .error e
    | .ok none => .error ENOENT
    | .ok (some .dir) => (haveI := Classical.propDecidable; if Empty t (resolve w.cwd p) then .ok ((), place t (resolve w.cwd p) none) else .error ENOTEMPTY)
    | .ok (some _) => .error ENOTDIR : Tree → Except Errno (Unit × Tree)) = g at h ⊢
  rcases plain_cases w g with ⟨e, h1, h2, h3, h4⟩ | ⟨a, t, h1, h2, h3, h4, h5⟩
  · have he : e ≠ 0 := by
      rcases h4 with ⟨h4, rfl⟩ | ⟨_, h4⟩
      · exact (hh.event h4).1
      · rw [← hg] at h4
        dsimp only at h4
        split at h4
        · next hf => injection h4 with h4; subst h4; rcases find_error hf with rfl | rfl <;> decide
        · injection h4 with h4; subst h4; decide
        · split at h4
          · cases h4
          · injection h4 with h4; subst h4; decide
        · injection h4 with h4; subst h4; decide
    rw [h3, if_neg he]
    exact he
  · rw [h1] at h; cases h

/-- `tmu_delete_directory` succeeds only for an empty directory, and then this directory is gone and nothing else is changed; if it does not succeed nothing
is changed. When nothing goes wrong, an empty directory is deleted. -/
theorem C223_directory (p : List Byte) (w : World) (ha : Alone w) (hh : Honest w) :
    ((deleteDirectory p w).1 = 0 → find w.tree w.cwd p = .ok (some .dir) ∧ Empty w.tree (resolve w.cwd p) ∧ (deleteDirectory p w).2.tree = place w.tree (resolve w.cwd p) none) ∧
    ((deleteDirectory p w).1 ≠ 0 → (deleteDirectory p w).2.tree = w.tree) ∧
    (Quiet w → find w.tree w.cwd p = .ok (some .dir) → Empty w.tree (resolve w.cwd p) → (deleteDirectory p w).1 = 0) := by
  obtain ⟨h1, h2, h3⟩ := deleteDirectory_snd p w
  have h4 := rmdir_errno p w hh
  rw [h1]
  rcases rmdir_spec p w ha with ⟨g1, _, g2, g3, g4⟩ | ⟨g1, g2, g3⟩
  · exact ⟨fun _ => ⟨g3, g4, g2⟩, fun h => absurd (h2 g1) h, fun _ _ _ => h2 g1⟩
  · refine ⟨fun h => absurd ((h3 g1).symm.trans h) (h4 g1), fun _ => g2, fun hq k1 k2 => ?_⟩
    rcases g3 with g3 | g3
    · rw [hq.event.2.1] at g3; cases g3
    · exact absurd ⟨k1, k2⟩ g3

example : Quiet demoDir ∧ Honest demoDir ∧ find demoDir.tree demoDir.cwd [lx] = .ok (some .dir) ∧ Empty demoDir.tree (resolve demoDir.cwd [lx]) := by
  refine ⟨⟨demo_quiet.calls, demo_quiet.allocs⟩, fun e he => absurd he (by rw [demoDir, demo]; simp), by decide, ?_⟩
  have : resolve demoDir.cwd [lx] = [[la], [lx]] := by decide
  rw [this]
  exact demoDir_empty

/-! ## C224: renaming -/

theorem rename_calm (p q : List Byte) (w : World) : Calm w (rename p q w).2 ∧ (rename p q w).2.allocs = w.allocs := ⟨plain_calm _ _, (plain_same _ _).1.allocs⟩

theorem renameOf_ok {cwd : List (List Byte)} {p q : List Byte} {t t' : Tree} {a : Unit} (h : renameOf cwd p q t = .ok (a, t')) :
    (∃ n, find t cwd p = .ok (some n)) ∧ ((resolve cwd p = resolve cwd q ∧ t' = t) ∨ (resolve cwd p ≠ resolve cwd q ∧ ¬ resolve cwd p <+: resolve cwd q ∧ t' = move t (resolve cwd p) (resolve cwd q))) := by
  rw [renameOf] at h
  split at h
  · cases h
  · cases h
  · next n hn =>
    refine ⟨⟨n, hn⟩, ?_⟩
    split at h
    · cases h
    · split at h
      · next he =>
        injection h with h
        injection h with _ h
        exact Or.inl ⟨he, h.symm⟩
      · next he =>
        split at h
        · cases h
        · next hp =>
          right
          refine ⟨he, hp, ?_⟩
          split at h
          · split at h
            · injection h with h; injection h with _ h; exact h.symm
            · split at h
              · injection h with h; injection h with _ h; exact h.symm
              · cases h
            · cases h
          · split at h
            · split at h
              · cases h
              · injection h with h; injection h with _ h; exact h.symm
            · cases h
            · injection h with h; injection h with _ h; exact h.symm

theorem renameOf_error {cwd : List (List Byte)} {p q : List Byte} {t : Tree} {e : Errno} (h : renameOf cwd p q t = .error e) (b : List Byte) (hp : find t cwd p = .ok (some (.file b)))
    (m : Option Node) (hq : find t cwd q = .ok m) (hn : ¬ resolve cwd p <+: resolve cwd q) (ht : trailing q = false) : m = some .dir := by
  rw [renameOf, hp] at h
  dsimp only at h
  rw [hq] at h
  dsimp only at h
  rw [if_neg (fun hx => hn (by rw [hx]; exact List.prefix_rfl)), if_neg hn, if_neg (by simp)] at h
  split at h
  · rw [ht] at h; cases h
  · rfl
  · cases h

theorem rename_spec (p q : List Byte) (w : World) (ha : Alone w) :
    ((rename p q w).1 = true ∧ (∃ n, find w.tree w.cwd p = .ok (some n)) ∧ ((resolve w.cwd p = resolve w.cwd q ∧ (rename p q w).2.tree = w.tree) ∨
      (resolve w.cwd p ≠ resolve w.cwd q ∧ ¬ resolve w.cwd p <+: resolve w.cwd q ∧ (rename p q w).2.tree = move w.tree (resolve w.cwd p) (resolve w.cwd q)))) ∨
    ((rename p q w).1 = false ∧ (rename p q w).2.tree = w.tree ∧ (w.event.fail = true ∨ ∀ b, find w.tree w.cwd p = .ok (some (.file b)) → ∀ m, find w.tree w.cwd q = .ok m →
      ¬ resolve w.cwd p <+: resolve w.cwd q → trailing q = false → m = some .dir)) := by
  rw [rename]
  dsimp only
  have hb := plain_bool w (renameOf w.cwd p q)
  rw [ha.others] at hb
  rcases hb with ⟨h1, h2, a, h3⟩ | ⟨h1, h2, h3⟩
  · left
    obtain ⟨k1, k2⟩ := renameOf_ok h3
    exact ⟨h1, k1, k2⟩
  · right
    refine ⟨h1, h2, ?_⟩
    rcases h3 with h3 | ⟨e, h3⟩
    · exact Or.inl h3
    · exact Or.inr (fun b hb m hm => renameOf_error h3 b hb m hm)

theorem move_place {t : Tree} {a b : List (List Byte)} (h : ¬ a <+: b) : move (place t b none) a b = move t a b := by
  funext q
  rw [move, move]
  split
  · rw [place_ne]
    intro hx
    exact h ⟨_, hx⟩
  · next h1 =>
    rw [place_ne]
    intro hx
    exact h1 (by rw [hx]; exact List.prefix_rfl)

/-- Moved, or not moved because it is there already. -/
def Moved (t t' : Tree) (a b : List (List Byte)) : Prop := t' = if a = b then t else move t a b

theorem find_mono {t t' : Tree} {cwd : List (List Byte)} {p : List Byte} {n : Node} (h : find t cwd p = .ok (some n)) (keep : ∀ q m, t q = some m → t' q = some m) :
    find t' cwd p = .ok (some n) := by
  have hs := find_some h
  rw [find] at h ⊢
  by_cases hp : p = []
  · rw [if_pos hp] at h; cases h
  · rw [if_neg hp] at h ⊢
    cases hw : walk t [] (resolve cwd p) with
    | some e => rw [hw] at h; cases h
    | none =>
      rw [hw] at h
      rw [walk_none (resolve cwd p) [] (fun q h1 h2 => keep q _ (walk_dirs _ _ hw q List.nil_prefix h1 h2)), keep _ _ hs]
      rw [hs] at h
      exact h

theorem renameAgain_spec (p q : List Byte) (w : World) :
    Calm w (renameAgain p q w).2 ∧ (Alone w → (renameAgain p q w).1 = 0 → Moved w.tree (renameAgain p q w).2.tree (resolve w.cwd p) (resolve w.cwd q) ∧ ∃ n, find w.tree w.cwd p = .ok (some n)) := by
  obtain ⟨h1, h2⟩ := deleteFile_snd q w
  obtain ⟨h3, _⟩ := remove_calm q w
  have h4 := fun ha => (C223_deleted q w ha).1
  rw [← h1] at h3
  rw [renameAgain]
  generalize deleteFile q w = d at h3 h4 ⊢
  obtain ⟨ec, w1⟩ := d
  dsimp only at h3 h4 ⊢
  by_cases h0 : ec = 0
  · rw [if_pos h0]
    obtain ⟨r1, _⟩ := rename_calm p q w1
    have r2 := rename_spec p q w1
    generalize rename p q w1 = r at r1 r2 ⊢
    obtain ⟨ok, w2⟩ := r
    dsimp only at r1 r2 ⊢
    cases ok with
    | false => exact ⟨h3.trans r1, fun _ hx => absurd hx (errnoOrIo_ne _)⟩
    | true =>
      refine ⟨h3.trans r1, fun ha _ => ?_⟩
      obtain ⟨_, ht⟩ := h4 ha h0
      rcases r2 (ha.drop h3.plan) with ⟨_, ⟨n, hn⟩, hm⟩ | ⟨hx, _⟩
      · rw [h3.cwd, ht] at hn hm
        dsimp only
        refine ⟨?_, n, find_mono hn ?_⟩
        · rcases hm with ⟨he, _⟩ | ⟨he, hp, hm⟩
          · have := find_some hn
            rw [he, place_same] at this
            cases this
          · rw [Moved, if_neg he, hm, move_place hp]
        · intro x m hx
          by_cases hxb : x = resolve w.cwd q
          · rw [hxb, place_same] at hx; cases hx
          · rw [place_ne _ _ hxb] at hx; exact hx
      · cases hx
  · rw [if_neg h0]
    exact ⟨h3, fun _ hx => absurd hx h0⟩

theorem renameFailed_calm (p q : List Byte) (flags : Flags) (w : World) :
    Calm w (renameFailed p q flags w).2 ∧ (Alone w → (renameFailed p q flags w).1 = 0 → Moved w.tree (renameFailed p q flags w).2.tree (resolve w.cwd p) (resolve w.cwd q) ∧ ∃ n, find w.tree w.cwd p = .ok (some n)) ∧
      (flags.overwrite = false → (renameFailed p q flags w).2 = w ∧ (renameFailed p q flags w).1 ≠ 0) := by
  rw [renameFailed]
  by_cases h : flags.overwrite = true
  · rw [if_pos h]
    obtain ⟨s1, _, s2⟩ := stat_calm p w
    rw [← fileExists_snd] at s1 s2
    generalize fileExists p w = r at s1 s2 ⊢
    obtain ⟨e1, w1⟩ := r
    dsimp only at s1 s2 ⊢
    by_cases h1 : e1.exists_ = true
    · rw [if_pos h1]
      obtain ⟨t1, _, t2⟩ := stat_calm q w1
      rw [← fileExists_snd] at t1 t2
      generalize fileExists q w1 = r at t1 t2 ⊢
      obtain ⟨e2, w2⟩ := r
      dsimp only at t1 t2 ⊢
      by_cases h2 : e2.exists_ = true
      · rw [if_pos h2]
        obtain ⟨k1, k2⟩ := renameAgain_spec p q w2
        refine ⟨(s1.trans t1).trans k1, fun ha h0 => ?_, fun hx => absurd h (by rw [hx]; simp)⟩
        have ha2 : Alone w2 := ha.drop (s1.trans t1).plan
        have ht : w2.tree = w.tree := by rw [t2, (ha.drop s1.plan : Alone w1).others, s2, ha.others]
        have := k2 ha2 h0
        rw [ht, (s1.trans t1).cwd] at this
        exact this
      · rw [if_neg h2]
        exact ⟨s1.trans t1, fun _ hx => absurd hx (errnoOrIo_ne _), fun hx => absurd h (by rw [hx]; simp)⟩
    · rw [if_neg h1]
      exact ⟨s1, fun _ hx => absurd hx (errnoOrIo_ne _), fun hx => absurd h (by rw [hx]; simp)⟩
  · rw [if_neg h]
    exact ⟨Calm.rfl, fun _ hx => absurd hx (errnoOrIo_ne _), fun _ => ⟨rfl, errnoOrIo_ne _⟩⟩

theorem renameOut_spec (p q : List Byte) (flags : Flags) (w : World) :
    Calm w (renameOut p q flags w).2 ∧ (Alone w → (renameOut p q flags w).1 = 0 → Moved w.tree (renameOut p q flags w).2.tree (resolve w.cwd p) (resolve w.cwd q) ∧ ∃ n, find w.tree w.cwd p = .ok (some n)) ∧
      (Alone w → flags.overwrite = false → (renameOut p q flags w).1 ≠ 0 → (renameOut p q flags w).2.tree = w.tree) ∧
      (Quiet w → ∀ b, find w.tree w.cwd p = .ok (some (.file b)) → ∀ m, find w.tree w.cwd q = .ok m → ¬ resolve w.cwd p <+: resolve w.cwd q → trailing q = false → m ≠ some .dir →
        (renameOut p q flags w).1 = 0) := by
  rw [renameOut]
  obtain ⟨r1, _⟩ := rename_calm p q { w with errno := 0 }
  have r2 := rename_spec p q { w with errno := 0 }
  generalize rename p q { w with errno := 0 } = r at r1 r2 ⊢
  obtain ⟨ok, w2⟩ := r
  have c0 : Calm w w2 := ⟨r1.streams, r1.dirs, r1.blocks, r1.next, r1.cwd, r1.plan⟩
  cases ok with
  | true =>
    dsimp only at r2 ⊢
    refine ⟨c0, fun ha _ => ?_, fun _ _ hx => absurd rfl hx, fun _ _ _ _ _ _ _ _ => rfl⟩
    rcases r2 ha with ⟨_, hn, hm⟩ | ⟨hx, _⟩
    · refine ⟨?_, hn⟩
      rcases hm with ⟨he, hm⟩ | ⟨he, _, hm⟩
      · rw [Moved, if_pos he, hm]
      · rw [Moved, if_neg he, hm]
    · cases hx
  | false =>
    dsimp only at r2 ⊢
    obtain ⟨k1, k2, k3⟩ := renameFailed_calm p q flags w2
    have ht : Alone w → w2.tree = w.tree := by
      intro ha
      rcases r2 ha with ⟨hx, _⟩ | ⟨_, ht, _⟩
      · cases hx
      · exact ht
    refine ⟨c0.trans k1, fun ha h0 => ?_, fun ha ho _ => ?_, fun hq b hb m hm h1 h2 h3 => ?_⟩
    · have := k2 (ha.drop c0.plan) h0
      rw [ht ha, c0.cwd] at this
      exact this
    · rw [(k3 ho).1, ht ha]
    · rcases r2 hq.alone with ⟨hx, _⟩ | ⟨_, _, hx | hx⟩
      · cases hx
      · exact absurd hx (by rw [show ({ w with errno := 0 } : World).event.fail = false from hq.event.2.1]; simp)
      · exact absurd (hx b hb m hm h1 h2) h3

theorem renameFileEx_spec (p q : List Byte) (flags : Flags) (w : World) :
    ∃ ec w', renameFileEx p q flags w = .ok (ec, w') ∧ Calm w w' ∧
      (Alone w → ∃ t, Grows w.tree t ∧ (flags.createTree = false → t = w.tree) ∧ (ec = 0 → Moved t w'.tree (resolve w.cwd p) (resolve w.cwd q) ∧ ∃ n, find t w.cwd p = .ok (some n)) ∧
        (flags.overwrite = false → ec ≠ 0 → w'.tree = t)) ∧
      (Alone w → Honest w → flags.overwrite = false → ∀ b, find w.tree w.cwd q = .ok (some (.file b)) → ec ≠ 0 ∧ w'.tree = w.tree) ∧
      (Quiet w → flags.createTree = false → ∀ b, find w.tree w.cwd p = .ok (some (.file b)) → ∀ m, find w.tree w.cwd q = .ok m → ¬ resolve w.cwd p <+: resolve w.cwd q → trailing q = false →
        m ≠ some .dir → (flags.overwrite = true ∨ m = none) → ec = 0) := by
  rw [renameFileEx]
  obtain ⟨b1, b2, b3, b4, b5, _⟩ := checkAbsent_spec flags q w
  generalize checkAbsent flags q w = c at b1 b2 b3 b4 b5 ⊢
  obtain ⟨e1, w1⟩ := c
  dsimp only at b1 b2 b3 b4 b5 ⊢
  by_cases h1 : e1 ≠ 0
  · rw [if_pos h1]
    refine ⟨e1, w1, rfl, b1, fun ha => ⟨w.tree, Grows.rfl, fun _ => rfl, fun hx => absurd hx h1, fun _ _ => b3 ha⟩, fun ha _ _ _ _ => ⟨h1, b3 ha⟩, fun hq hc b hb m hm _ _ _ ho => ?_⟩
    refine absurd (b5 hq ?_) h1
    rcases ho with ho | ho
    · exact Or.inl ho
    · exact Or.inr (by intro b hx; rw [hm, ho] at hx; cases hx)
  · rw [if_neg h1]
    have h10 : e1 = 0 := Decidable.byContradiction h1
    obtain ⟨ec, w2, e2, a1, a2, a3, a4, _⟩ := createTree_spec flags q w1
    rw [e2, ok_bind]
    dsimp only
    have hg : Alone w → Grows w.tree w2.tree := fun ha => by
      have := a2 (ha.drop b1.plan)
      rw [b3 ha] at this
      exact this
    have hsame : Alone w → flags.createTree = false → w2.tree = w.tree := fun ha hc => by rw [(a4 hc).2, b3 ha]
    have hguard : Alone w → Honest w → flags.overwrite = false → ∀ b, find w.tree w.cwd q ≠ .ok (some (.file b)) := fun ha hh ho => b4 ha hh ho h10
    by_cases h2 : ec ≠ 0
    · rw [if_pos h2]
      exact ⟨ec, w2, rfl, b1.trans a1, fun ha => ⟨w2.tree, hg ha, hsame ha, fun hx => absurd hx h2, fun _ _ => rfl⟩, fun ha hh ho b hb => absurd hb (hguard ha hh ho b),
        fun _ hc => absurd (a4 hc).1 h2⟩
    · rw [if_neg h2]
      obtain ⟨k1, k2, k3, k4⟩ := renameOut_spec p q flags w2
      have c2 := b1.trans a1
      refine ⟨_, _, rfl, c2.trans k1, fun ha => ⟨w2.tree, hg ha, hsame ha, fun h0 => ?_, fun ho h0 => k3 (ha.drop c2.plan) ho h0⟩, fun ha hh ho b hb => absurd hb (hguard ha hh ho b),
        fun hq hc b hb m hm g1 g2 g3 _ => ?_⟩
      · have := k2 (ha.drop c2.plan) h0
        rw [c2.cwd] at this
        exact this
      · refine k4 (hq.drop c2.plan ?_) b ?_ m ?_ ?_ g2 g3
        · intro a ha; rw [← b2]; exact a3 a ha
        · rw [hsame hq.alone hc, c2.cwd]; exact hb
        · rw [hsame hq.alone hc, c2.cwd]; exact hm
        · rw [c2.cwd]; exact g1

/-- Whatever happens, renaming is defined and nothing is left open or allocated. -/
theorem C224_memory (p q : List Byte) (flags : Flags) (w : World) :
    ∃ ec w', renameFileEx p q flags w = .ok (ec, w') ∧ w'.streams = w.streams ∧ w'.dirs = w.dirs ∧ w'.blocks = w.blocks := by
  obtain ⟨ec, w', e1, h1, _⟩ := renameFileEx_spec p q flags w
  exact ⟨ec, w', e1, h1.streams, h1.dirs, h1.blocks⟩

/-- If renaming succeeds, what the first path led to is where the second path leads, it is not where it was, and nothing else is changed, apart from
directories it was asked to create; whichever calls failed on the way. -/
theorem C224_moved (p q : List Byte) (flags : Flags) (w : World) (ha : Alone w) (w' : World) (h : renameFileEx p q flags w = .ok (0, w')) :
    ∃ t, Grows w.tree t ∧ (flags.createTree = false → t = w.tree) ∧ (∃ n, find t w.cwd p = .ok (some n)) ∧
      w'.tree = if resolve w.cwd p = resolve w.cwd q then t else move t (resolve w.cwd p) (resolve w.cwd q) := by
  obtain ⟨ec, w1, e1, h1, h2, _⟩ := renameFileEx_spec p q flags w
  rw [e1] at h
  injection h with h
  injection h with ha' hb'
  subst ha' hb'
  obtain ⟨t, g1, g2, g3, _⟩ := h2 ha
  exact ⟨t, g1, g2, (g3 rfl).2, (g3 rfl).1⟩

/-- When nothing goes wrong a file is renamed, if the other name is free, or that of a file that may be overwritten. -/
theorem C224_succeeds (p q : List Byte) (flags : Flags) (w : World) (hq : Quiet w) (hc : flags.createTree = false) (b : List Byte) (hb : find w.tree w.cwd p = .ok (some (.file b)))
    (hfree : find w.tree w.cwd q = .ok none ∨ (flags.overwrite = true ∧ ∃ b', find w.tree w.cwd q = .ok (some (.file b')))) (hne : ¬ resolve w.cwd p <+: resolve w.cwd q) (ht : trailing q = false) :
    ∃ w', renameFileEx p q flags w = .ok (0, w') ∧ w'.tree = move w.tree (resolve w.cwd p) (resolve w.cwd q) := by
  obtain ⟨ec, w1, e1, h1, h2, h3, h4⟩ := renameFileEx_spec p q flags w
  have h0 : ec = 0 := by
    rcases hfree with hf | ⟨ho, b', hf⟩
    · exact h4 hq hc b hb _ hf hne ht (by simp) (Or.inr rfl)
    · exact h4 hq hc b hb _ hf hne ht (by simp) (Or.inl ho)
  subst h0
  obtain ⟨t, g1, g2, g3, _⟩ := h2 hq.alone
  have := (g3 rfl).1
  rw [Moved, if_neg (fun hx => hne (by rw [hx]; exact List.prefix_rfl)), g2 hc] at this
  exact ⟨w1, e1, this⟩

example : find demo.tree demo.cwd [lf] = .ok (some (.file [1, 2, 3])) ∧ find demo.tree demo.cwd [lx] = .ok none ∧ ¬ resolve demo.cwd [lf] <+: resolve demo.cwd [lx] ∧
    move demo.tree (resolve demo.cwd [lf]) (resolve demo.cwd [lx]) [[la], [lx]] = some (.file [1, 2, 3]) ∧ move demo.tree (resolve demo.cwd [lf]) (resolve demo.cwd [lx]) [[la], [lf]] = none := by
  decide

/-- Without `tmu_overwrite` a file with the other name is kept, whichever calls fail, and the function reports an error. -/
theorem C224_guarded (p q : List Byte) (flags : Flags) (w : World) (ha : Alone w) (hh : Honest w) (ho : flags.overwrite = false) (b : List Byte) (hb : find w.tree w.cwd q = .ok (some (.file b)))
    (ec : Errno) (w' : World) (h : renameFileEx p q flags w = .ok (ec, w')) : ec ≠ 0 ∧ w'.tree = w.tree := by
  obtain ⟨ec1, w1, e1, h1, h2, h3, h4⟩ := renameFileEx_spec p q flags w
  rw [e1] at h
  injection h with h
  injection h with ha' hb'
  subst ha' hb'
  exact h3 ha hh ho b hb

/-- Part of C224: if renaming without `tmu_overwrite` does not succeed, nothing is changed, apart from directories it was asked to create. Missing: with
`tmu_overwrite` this does not hold. -/
theorem C224_kept_partial (p q : List Byte) (flags : Flags) (w : World) (ha : Alone w) (ho : flags.overwrite = false) (ec : Errno) (w' : World) (h : renameFileEx p q flags w = .ok (ec, w')) (hec : ec ≠ 0) :
    Grows w.tree w'.tree ∧ (flags.createTree = false → w'.tree = w.tree) := by
  obtain ⟨ec1, w1, e1, h1, h2, h3, h4⟩ := renameFileEx_spec p q flags w
  rw [e1] at h
  injection h with h
  injection h with ha' hb'
  subst ha' hb'
  obtain ⟨t, g1, g2, g3, g4⟩ := h2 ha
  rw [g4 ho hec]
  exact ⟨g1, g2⟩

/-- Two files, `f` and `x`, and a plan in which `rename` fails and all else succeeds. -/
def demoTwo : World := { demo with tree := place demoTree [[la], [lx]] (some (.file [9])), plan := [{ fail := true, err := EIO }, {}, {}, {}, { fail := true, err := EIO }] }

theorem demoTwo_alone : Alone demoTwo := by
  intro e he
  simp only [demoTwo, List.mem_cons, List.not_mem_nil, or_false] at he
  rcases he with rfl | rfl | rfl | rfl | rfl <;> rfl

/-- C224 fails with `tmu_overwrite`: when `rename` fails for whatever reason, the file with the other name is deleted before the next attempt. If that fails
too, an error is reported and the file is gone. -/
theorem C224_not_kept : ∃ w : World, Alone w ∧ Honest w ∧ find w.tree w.cwd [lx] = .ok (some (.file [9])) ∧
    ∃ w', renameFileEx [lf] [lx] ⟨false, true, false, false⟩ w = .ok (EIO, w') ∧ find w'.tree w'.cwd [lx] = .ok none := by
  refine ⟨demoTwo, demoTwo_alone, ?_, by decide, _, rfl, rfl⟩
  intro e he hf
  simp only [demoTwo, List.mem_cons, List.not_mem_nil, or_false] at he
  rcases he with rfl | rfl | rfl | rfl | rfl <;> first | (cases hf; done) | decide

/-- C224 fails with `tmu_overwrite` when both paths lead to the same file: if `rename` fails once, the file is deleted and nothing is left of it. -/
theorem C224_not_same : ∃ w : World, Alone w ∧ find w.tree w.cwd [lf] = .ok (some (.file [1, 2, 3])) ∧
    ∃ ec w', renameFileEx [lf] [0x2E, slash, lf] ⟨false, true, false, false⟩ w = .ok (ec, w') ∧ ec ≠ 0 ∧ find w'.tree w'.cwd [lf] = .ok none :=
  ⟨demoTwo, demoTwo_alone, by decide, EIO, _, rfl, by decide, rfl⟩

end Tm.File
