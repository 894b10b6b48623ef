import Verif.File.PathLemmas2
import Verif.File.MoveProps

/-! The current directory, the path of the program, listing directories, comparing times, and paths that are not terminated. -/

namespace Tm.File

/-- The fault of a computation that is undefined. -/
def faultOf {α : Type} : C α → Option Fault
  | .error f => some f
  | .ok _ => none

theorem of_fault {α : Type} {x : C α} {f : Fault} (h : faultOf x = some f) : x = .error f := by
  cases x with
  | error g => injection h with h; rw [h]
  | ok _ => cases h

/-! ## C225: the current directory -/

/-- Part of C225: if room for at least one more character was asked for, or the length of the path is not one less than a multiple of 200, the function is
defined whatever the operating system and the allocator do; it changes nothing, and giving back the contents leaves the blocks there were before. If it
succeeds, the contents are the path of the current directory with a slash at the end, terminated, and as many characters as were asked for fit behind it.
Missing: the other lengths. -/
theorem C225_path_partial (extra : Nat) (w : World) (h0 : 0 ∉ cwdText w.cwd) (hx : 0 < extra ∨ ((cwdText w.cwd).length + 1) % 200 ≠ 0) :
    ∃ r w', currentWorkingDirectory extra w = .ok (r, w') ∧ w'.streams = w.streams ∧ w'.dirs = w.dirs ∧ w'.cwd = w.cwd ∧ (Alone w → w'.tree = w.tree) ∧
      (∃ w'', destroyContents r.contents w' = .ok w'' ∧ w''.blocks = w.blocks) ∧
      (r.ec = 0 → r.contents.cells.take r.contents.size = slashed (cwdText w.cwd) ∧ r.contents.cells[r.contents.size]? = some 0 ∧ r.contents.size + extra ≤ r.contents.cells.length) ∧
      (Quiet w → r.ec = 0) := by
  obtain ⟨r, w', e1, h1, h2, h3⟩ := currentWorkingDirectory_spec extra w h0 (hx.imp_right Or.inr)
  exact ⟨r, w', e1, h1.around.streams, h1.around.dirs, h1.around.cwd, h1.around.tree, gives_destroy h1, fun he => (h2 he).2, h3⟩

example : 0 ∉ cwdText demo.cwd ∧ ((cwdText demo.cwd).length + 1) % 200 ≠ 0 ∧ slashed (cwdText demo.cwd) = [slash, la, slash] ∧ slashed (cwdText []) = [slash] := by decide

/-- A world whose current directory has a path of 199 characters. -/
def demoLong : World := { demo with cwd := [List.replicate 198 la] }

/-- C225 fails: when no more room is asked for and the path has 199 characters, the path and its terminator fill the buffer, and there is no room for the
slash although the function made sure that there is room for "a trailing '/'". An assertion fails; without assertions the terminator is written behind the
buffer. -/
theorem C225_not_room : Quiet demoLong ∧ Fresh demoLong ∧ currentWorkingDirectory 0 demoLong = .error .assertion :=
  ⟨⟨demo_quiet.1, demo_quiet.2⟩, ⟨demo_fresh.1, demo_fresh.2, demo_fresh.3⟩, of_fault (by decide +kernel)⟩

/-! ## C226: the path of the program -/

/-- Part of C226: if the first reading of the link does not fail, asking for the path of the program is defined whatever else the operating system and the
allocator do; nothing is changed, and what is returned is all that was allocated. If it succeeds, the contents are the whole path, terminated, however
long it is. Missing: that the first reading fails. -/
theorem C226_filename_partial (w : World) (hh : Honest w) (hf : w.event.fail = false) :
    ∃ r w', moduleFilename w = .ok (r, w') ∧ w'.streams = w.streams ∧ w'.dirs = w.dirs ∧ (Alone w → w'.tree = w.tree) ∧
      (∃ w'', destroyContents r.contents w' = .ok w'' ∧ w''.blocks = w.blocks) ∧
      (r.ec = 0 → r.contents.cells.take r.contents.size = w.exe ∧ r.contents.size = w.exe.length ∧ r.contents.cells[r.contents.size]? = some 0) ∧
      (r.ec ≠ 0 → r.contents = noContents) ∧ (Quiet w → r.ec = 0) := by
  obtain ⟨r, w', e1, h1, h2, h3, h4⟩ := moduleFilename_spec w hh hf
  exact ⟨r, w', e1, h1.around.streams, h1.around.dirs, h1.around.tree, gives_destroy h1, fun he => (h2 he).2, h3, h4⟩

theorem demo_honest : Honest demo := by intro e he; exact absurd he (by rw [demo]; simp)

/-- A program with a long path. -/
def demoFar : World := { demo with exe := slash :: List.replicate 300 la }

example : Honest demoFar ∧ demoFar.event.fail = false ∧ (match moduleFilename demoFar with
    | .ok (r, w') => decide (r.contents.size = 301 ∧ w'.blocks.length = 2)
    | .error _ => false) = true :=
  ⟨demo_honest, rfl, by decide +kernel⟩

/-- C226 fails: if the first reading of the link fails, the function frees an array on its stack. -/
theorem C226_not_failed : ∃ w : World, Fresh w ∧ Alone w ∧ Honest w ∧ moduleFilename w = .error .invalid := by
  refine ⟨{ demo with plan := [{ fail := true, err := 13 }] }, ⟨demo_fresh.1, demo_fresh.2, demo_fresh.3⟩, ?_, ?_, of_fault (by decide +kernel)⟩
  · intro e he
    rw [List.mem_singleton.1 he]
  · intro e he _
    rw [List.mem_singleton.1 he]
    decide

/-- Part of C226: the directory of the program is its path up to the last slash, with the slash, and terminated. Missing: as above. -/
theorem C226_directory_partial (w : World) (hh : Honest w) (hf : w.event.fail = false) :
    ∃ r w', moduleDirectory w = .ok (r, w') ∧ w'.streams = w.streams ∧ w'.dirs = w.dirs ∧ (Alone w → w'.tree = w.tree) ∧
      (∃ w'', destroyContents r.contents w' = .ok w'' ∧ w''.blocks = w.blocks) ∧
      (r.ec = 0 → ∃ rest, w.exe = r.contents.cells.take r.contents.size ++ rest ∧ slash ∉ rest ∧
        (r.contents.size = 0 ∨ (r.contents.cells.take r.contents.size).getLast? = some slash) ∧ r.contents.cells[r.contents.size]? = some 0) ∧
      (r.ec ≠ 0 → r.contents = noContents) ∧ (Quiet w → r.ec = 0) := by
  obtain ⟨r, w', e1, h1, h2, h3, h4⟩ := moduleDirectory_spec w hh hf
  exact ⟨r, w', e1, h1.around.streams, h1.around.dirs, h1.around.tree, gives_destroy h1, h2, h3, h4⟩

example : (match moduleDirectory demo with
    | .ok (r, _) => decide (r.ec = 0 ∧ r.contents.cells.take r.contents.size = [slash, la, slash])
    | .error _ => false) = true := by decide +kernel

/-! ## C227: listing a directory -/

/-- The entries a listing is about: all but `.` and `..`. -/
def visible (es : List Entry) : List Entry := es.filter fun e => decide (e.name ≠ [0x2E]) && decide (e.name ≠ [0x2E, 0x2E])

/-- A program that lists a directory: it calls `tmu_read_directory` until there is nothing. -/
def listRest : Nat → OpenedDir → World → C (List (List Byte × Bool) × OpenedDir × World)
  | 0, _, _ => .error .diverge
  | fuel + 1, d, w => do
    let (o, d, w) ← readDirectory d w
    match o with
    | none => .ok ([], d, w)
    | some x => do
      let (l, d, w) ← listRest fuel d w
      .ok (x :: l, d, w)

/-- What a listing says about an entry. -/
def shown (e : Entry) : List Byte × Bool := (e.name, decide (e.type &&& 4 = 0))

theorem visible_dots {es : List Entry} (h : ∀ x ∈ es, x.name = [0x2E] ∨ x.name = [0x2E, 0x2E]) : visible es = [] := by
  rw [visible, List.filter_eq_nil_iff]
  intro x hx
  rcases h x hx with h | h <;> simp [h]

theorem listRest_spec {ds : List (Nat × List Entry)} {h : Nat} : ∀ (fuel : Nat) (es : List Entry) (d : OpenedDir) (w : World), Lists ds h es w → d = ⟨0, some h⟩ → es.length < fuel →
    ∃ l d' w', listRest fuel d w = .ok (l, d', w') ∧ Looks w w' ∧ d'.handle = some h ∧ (∃ es', Lists ds h es' w') ∧ l <+: (visible es).map shown ∧
      (Honest w → d'.ec = 0 → l = (visible es).map shown) ∧ (NoFail w → d'.ec = 0)
  | 0, _, _, _, _, _, h => absurd h (Nat.not_lt_zero _)
  | fuel + 1, es, d, w, hl, hd, hfuel => by
    rw [listRest, readDirectory, hd]
    dsimp only
    have hleft : entriesLeft h w = es.length := by rw [entriesLeft, hl.dirs]; simp
    rw [hleft]
    obtain ⟨r, w1, e1, a1, a2⟩ := readLoop_spec (es.length + 1) es w hl (Nat.lt_succ_self _)
    rw [e1]
    dsimp only [bind, Except.bind]
    rcases a2 with ⟨e, sk, es', h1, h2, h3, h4, h5⟩ | ⟨ec, es', h1, h2, h3, h4⟩
    · subst h1
      dsimp only
      have hv : visible es = e :: visible es' := by
        rw [h2, visible, List.filter_append, show sk.filter _ = [] from visible_dots h3, List.nil_append, List.filter_cons_of_pos]
        · rfl
        · rw [not_or] at h4
          simpa using h4
      obtain ⟨l, d', w', k1, k2, k3, k4, k5, k6, k7⟩ := listRest_spec fuel es' ⟨0, some h⟩ w1 h5 rfl (by
        rw [h2, List.length_append, List.length_cons] at hfuel
        omega)
      rw [k1]
      refine ⟨_, _, _, rfl, a1.trans k2, k3, k4, ?_, fun hh h0 => ?_, fun hn => k7 (hn.drop a1.plan)⟩
      · rw [hv, List.map_cons]
        exact List.cons_prefix_cons.2 ⟨rfl, k5⟩
      · rw [hv, List.map_cons, k6 (hh.drop a1.plan) h0]
        rfl
    · subst h1
      dsimp only
      refine ⟨_, _, _, rfl, a1, ?_, ⟨es', h2⟩, List.nil_prefix, fun hh h0 => ?_, fun hn => ?_⟩
      · split <;> rfl
      · by_cases hec : ec = 0
        · rw [visible_dots (h3 hh hec)]
          rfl
        · rw [if_pos hec] at h0
          exact absurd h0 hec
      · rw [if_neg (fun hx => hx (h4 hn))]

theorem opendir_spec (p : List Byte) (w : World) (hf : Fresh w) :
    ((opendir p w).1 = none ∧ Calm w (opendir p w).2 ∧ (Alone w → (opendir p w).2.tree = w.tree) ∧ (Honest w → (opendir p w).2.errno ≠ 0) ∧ (NoFail w → Alone w → find w.tree w.cwd p ≠ .ok (some .dir))) ∨
    (∃ h, (opendir p w).1 = some h ∧ Lists w.dirs h (w.entries (resolve w.cwd p)) (opendir p w).2 ∧ Looks w (opendir p w).2 ∧ (Alone w → find w.tree w.cwd p = .ok (some .dir))) := by
  rw [opendir]
  have key := plain_cases w (fun t => match find t w.cwd p with
    | .error e => .error e
    | .ok none => .error ENOENT
    | .ok (some .dir) => .ok ((), t)
    | .ok (some _) => .error ENOTDIR)
  have hs := plain_same w (fun t => match find t w.cwd p with
    | .error e => .error e
    | .ok none => .error ENOENT
    | .ok (some .dir) => .ok ((), t)
    | .ok (some _) => .error ENOTDIR)
  generalize w.plain (fun t => match find t w.cwd p with
    | .error e => .error e
    | .ok none => .error ENOENT
    | .ok (some .dir) => .ok ((), t)
    | .ok (some _) => .error ENOTDIR) = r at key hs ⊢
  obtain ⟨o, w1⟩ := r
  dsimp only at key hs ⊢
  obtain ⟨s1, s2⟩ := hs
  rcases key with ⟨e, h1, h2, h3, h4⟩ | ⟨a, t, h1, h2, h3, h4, h5⟩
  · subst h1
    dsimp only
    refine Or.inl ⟨rfl, ⟨s1.streams, s1.dirs, s1.blocks, Nat.le_of_eq s1.next.symm, s1.cwd, ⟨1, by rw [s2, List.drop_one]⟩⟩, fun ha => by rw [h2, ha.others], fun hh => ?_, fun hn ha hd => ?_⟩
    · rw [h3]
      have he : e ≠ 0 := by
        rcases h4 with ⟨h4, h5⟩ | ⟨_, h4⟩
        · rw [h5]; exact (hh.event h4).1
        · split at h4
          · rename_i e' he'
            injection h4 with h4
            subst h4
            rcases find_error he' with h | h <;> rw [h] <;> decide
          · injection h4 with h4; rw [← h4]; decide
          · cases h4
          · injection h4 with h4; rw [← h4]; decide
      rw [if_neg he]
      exact he
    · rcases h4 with ⟨h4, _⟩ | ⟨_, h4⟩
      · rw [hn.event] at h4; cases h4
      · rw [ha.others, hd] at h4
        cases h4
  · subst h1
    dsimp only
    have ht : find (w.event.others w.tree) w.cwd p = .ok (some .dir) ∧ t = w.event.others w.tree := by
      split at h5
      · cases h5
      · cases h5
      · rename_i hx
        injection h5 with h5
        injection h5 with _ h5
        exact ⟨hx, h5.symm⟩
      · cases h5
    refine Or.inr ⟨_, rfl, ⟨by show _ :: w1.dirs = _; rw [s1.dirs, s1.entries, s1.cwd], fun x hx => ?_⟩, ⟨s1.streams, s1.blocks, ⟨1, by show w1.plan = _; rw [s2, List.drop_one]⟩, fun ha => ?_⟩, fun ha => ?_⟩
    · have := hf.dirs x hx
      rw [s1.next]
      omega
    · show w1.tree = _
      rw [h2, ht.2, ha.others]
    · rw [← ha.others]
      have := ht.1
      rw [ha.others] at this ⊢
      exact this

theorem closedir_spec {ds : List (Nat × List Entry)} {h : Nat} {es : List Entry} {w : World} (hl : Lists ds h es w) :
    ∃ w', closedir h w = .ok w' ∧ Looks w w' ∧ w'.dirs = ds := by
  rw [closedir, if_pos (by rw [hl.dirs]; simp)]
  refine ⟨_, rfl, ⟨rfl, rfl, ⟨1, by show w.plan.tail = _; rw [List.drop_one]⟩, fun ha => ha.others⟩, ?_⟩
  show w.dirs.filter (fun x => x.1 != h) = ds
  rw [hl.dirs, List.filter_cons_of_neg (by simp)]
  exact List.filter_eq_self.2 (fun x hx => by simpa using hl.other x hx)

/-- The directory a path leads to, where the empty path is the current directory. -/
def dirPath (p : List Byte) : List Byte := if p = [] then [0x2E] else p

theorem listing (p : List Byte) (w : World) (hw : Fresh w) (ha : Alone w) :
    ((openDirectory p w).1.handle = none ∧ (Honest w → (openDirectory p w).1.ec ≠ 0) ∧ (openDirectory p w).2.dirs = w.dirs ∧ (openDirectory p w).2.tree = w.tree ∧
      (NoFail w → find w.tree w.cwd (dirPath p) ≠ .ok (some .dir))) ∨
    ((openDirectory p w).1.handle ≠ none ∧ (openDirectory p w).1.ec = 0 ∧ find w.tree w.cwd (dirPath p) = .ok (some .dir) ∧
      ∀ n, (w.entries (resolve w.cwd (dirPath p))).length < n → ∃ l d' w2, listRest n (openDirectory p w).1 (openDirectory p w).2 = .ok (l, d', w2) ∧
        l <+: (visible (w.entries (resolve w.cwd (dirPath p)))).map shown ∧
        (Honest w → d'.ec = 0 → l = (visible (w.entries (resolve w.cwd (dirPath p)))).map shown) ∧ (NoFail w → d'.ec = 0) ∧
        ∃ w3, closeDirectory d' w2 = .ok (⟨0, none⟩, w3) ∧ w3.dirs = w.dirs ∧ w3.streams = w.streams ∧ w3.blocks = w.blocks ∧ w3.tree = w.tree) := by
  have ho : openDirectory p w = match opendir (dirPath p) w with
    | (none, w) => (⟨w.errno, none⟩, w)
    | (some d, w) => (⟨0, some d⟩, w) := rfl
  rw [ho]
  have key := opendir_spec (dirPath p) w hw
  generalize opendir (dirPath p) w = r at key ⊢
  obtain ⟨o, w1⟩ := r
  dsimp only at key
  rcases key with ⟨h1, h2, h3, h4, h5⟩ | ⟨h, h1, h2, h3, h4⟩
  · subst h1
    exact Or.inl ⟨rfl, h4, h2.dirs, h3 ha, fun hn => h5 hn ha⟩
  · subst h1
    refine Or.inr ⟨by simp, rfl, h4 ha, fun n hn => ?_⟩
    obtain ⟨l, d', w', k1, k2, k3, ⟨es', k4⟩, k5, k6, k7⟩ := listRest_spec n _ ⟨0, some h⟩ w1 h2 rfl hn
    refine ⟨l, d', w', k1, k5, fun hh => k6 (hh.drop h3.plan), fun hn => k7 (hn.drop h3.plan), ?_⟩
    obtain ⟨w3, e3, g1, g2⟩ := closedir_spec k4
    rw [closeDirectory, k3]
    dsimp only
    rw [e3, ok_bind]
    have hl := (h3.trans k2).trans g1
    exact ⟨w3, rfl, g2, hl.streams, hl.blocks, hl.tree ha⟩

/-- Listing a directory gives the names in it, each once and in the order of the operating system, without `.` and `..`. If a call fails some of the names
at the end may be missing, and then the error says so. Closing leaves what was open before, and no file is changed. If opening fails, the error says so. -/
theorem C227_names (p : List Byte) (w : World) (hw : Fresh w) (ha : Alone w) (hh : Honest w) (d : OpenedDir) (w1 : World) (h : openDirectory p w = (d, w1)) :
    (d.handle = none ∧ d.ec ≠ 0 ∧ w1.dirs = w.dirs ∧ w1.tree = w.tree) ∨
    (d.ec = 0 ∧ find w.tree w.cwd (dirPath p) = .ok (some .dir) ∧
      ∀ n, (w.entries (resolve w.cwd (dirPath p))).length < n → ∃ l d' w2, listRest n d w1 = .ok (l, d', w2) ∧
        l.map Prod.fst <+: (visible (w.entries (resolve w.cwd (dirPath p)))).map Entry.name ∧
        (d'.ec = 0 → l.map Prod.fst = (visible (w.entries (resolve w.cwd (dirPath p)))).map Entry.name) ∧
        ∃ w3, closeDirectory d' w2 = .ok (⟨0, none⟩, w3) ∧ w3.dirs = w.dirs ∧ w3.streams = w.streams ∧ w3.blocks = w.blocks ∧ w3.tree = w.tree) := by
  have key := listing p w hw ha
  rw [h] at key
  have hm : ∀ es : List Entry, (es.map shown).map Prod.fst = es.map Entry.name := by
    intro es
    rw [List.map_map]
    rfl
  rcases key with ⟨k1, k2, k3, k4, _⟩ | ⟨_, k2, k3, k4⟩
  · exact Or.inl ⟨k1, k2 hh, k3, k4⟩
  · refine Or.inr ⟨k2, k3, fun n hn => ?_⟩
    obtain ⟨l, d', w2, g1, g2, g3, _, g5⟩ := k4 n hn
    exact ⟨l, d', w2, g1, hm _ ▸ g2.map Prod.fst, fun h0 => by rw [g3 hh h0, hm], g5⟩

/-- When no call fails, a directory that is there can be opened and listed to its end. -/
theorem C227_succeeds (p : List Byte) (w : World) (hw : Fresh w) (ha : Alone w) (hn : NoFail w) (hd : find w.tree w.cwd (dirPath p) = .ok (some .dir)) (n : Nat)
    (hlen : (w.entries (resolve w.cwd (dirPath p))).length < n) :
    ∃ d w1 l d' w2, openDirectory p w = (d, w1) ∧ d.ec = 0 ∧ listRest n d w1 = .ok (l, d', w2) ∧ d'.ec = 0 ∧
      l.map Prod.fst = (visible (w.entries (resolve w.cwd (dirPath p)))).map Entry.name := by
  have hh : Honest w := fun e he hf => absurd hf (by rw [hn e he]; simp)
  rcases listing p w hw ha with ⟨_, _, _, _, k⟩ | ⟨_, k2, _, k4⟩
  · exact absurd hd (k hn)
  · obtain ⟨l, d', w2, g1, _, g3, g4, _⟩ := k4 n hlen
    refine ⟨_, _, l, d', w2, rfl, k2, g1, g4 hn, ?_⟩
    rw [g3 hh (g4 hn), List.map_map]
    rfl

/-- A directory with a directory, a file, a socket and something the file system does not tell the type of. -/
def demoList : World := { demo with entries := fun q => if q = [[la]] then [⟨[0x2E], 4⟩, ⟨[lb], 4⟩, ⟨[lf], 8⟩, ⟨[0x2E, 0x2E], 4⟩, ⟨[lx], 12⟩, ⟨[la], 0⟩] else [] }

example : Fresh demoList ∧ Alone demoList ∧ NoFail demoList ∧ find demoList.tree demoList.cwd (dirPath []) = .ok (some .dir) ∧
    ∃ d w1 l d' w2, openDirectory [] demoList = (d, w1) ∧ listRest 7 d w1 = .ok (l, d', w2) ∧ l.map Prod.fst = [[lb], [lf], [lx], [la]] :=
  ⟨⟨demo_fresh.1, demo_fresh.2, demo_fresh.3⟩, demo_quiet.alone, demo_quiet.noFail, by decide, _, _, _, _, _, rfl, rfl, by decide⟩

/-- Part of C227: if the operating system says of everything in a directory whether it is a directory (`DT_DIR` is 4) or a regular file (`DT_REG` is 8), the
listing tells the files from the directories. Missing: the other types. -/
theorem C227_types_partial (p : List Byte) (w : World) (hw : Fresh w) (ha : Alone w) (hn : NoFail w) (hd : find w.tree w.cwd (dirPath p) = .ok (some .dir)) (n : Nat)
    (hlen : (w.entries (resolve w.cwd (dirPath p))).length < n) (ht : ∀ e ∈ w.entries (resolve w.cwd (dirPath p)), e.type = 4 ∨ e.type = 8) :
    ∃ d w1 l d' w2, openDirectory p w = (d, w1) ∧ listRest n d w1 = .ok (l, d', w2) ∧
      l = (visible (w.entries (resolve w.cwd (dirPath p)))).map fun e => (e.name, decide (e.type = 8)) := by
  have hh : Honest w := fun e he hf => absurd hf (by rw [hn e he]; simp)
  rcases listing p w hw ha with ⟨_, _, _, _, k⟩ | ⟨_, k2, _, k4⟩
  · exact absurd hd (k hn)
  · obtain ⟨l, d', w2, g1, _, g3, g4, _⟩ := k4 n hlen
    refine ⟨_, _, l, d', w2, rfl, g1, ?_⟩
    rw [g3 hh (g4 hn)]
    apply List.map_congr_left
    intro e he
    rcases ht e (List.mem_filter.1 he).1 with h | h <;> rw [shown, h] <;> rfl

/-- C227 fails for other types: a socket (`DT_SOCK` is 12) is listed as a directory, and what has no known type, which may be a directory, as a file. -/
theorem C227_not_types : ∃ d w1 d' w2, openDirectory [] demoList = (d, w1) ∧ listRest 7 d w1 = .ok ([([lb], false), ([lf], true), ([lx], false), ([la], true)], d', w2) :=
  ⟨_, _, _, _, rfl, rfl⟩

/-! ## C228: comparing times -/

/-- Part of C228: times that are less than 2^63 apart are compared as they should be. Missing: times farther apart. -/
theorem C228_order_partial (a b : BitVec 64) (h1 : a.toNat < b.toNat + 2 ^ 63) (h2 : b.toNat < a.toNat + 2 ^ 63) :
    (compareFileTime a b < 0 ↔ a.toNat < b.toNat) ∧ (compareFileTime a b = 0 ↔ a.toNat = b.toNat) ∧ (compareFileTime a b > 0 ↔ b.toNat < a.toNat) := by
  have ha := a.isLt
  have hb := b.isLt
  have hs : (a - b).toNat = (2 ^ 64 - b.toNat + a.toNat) % 2 ^ 64 := BitVec.toNat_sub a b
  have hi : (a - b).toInt = if 2 * (a - b).toNat < 2 ^ 64 then ((a - b).toNat : Int) else ((a - b).toNat : Int) - (2 ^ 64 : Nat) := BitVec.toInt_eq_toNat_cond (a - b)
  rw [compareFileTime, hi, hs]
  (repeat' split) <;> omega

example : (5 : BitVec 64).toNat < (7 : BitVec 64).toNat + 2 ^ 63 ∧ compareFileTime 5 7 = -1 ∧ compareFileTime 7 5 = 1 ∧ compareFileTime 7 7 = 0 := by decide

/-- C228 fails for times far apart: they are unsigned, but their difference is taken as signed. -/
theorem C228_not_order : ∃ a b : BitVec 64, a.toNat < b.toNat ∧ compareFileTime a b = 1 := ⟨0, 0xFFFFFFFFFFFFFFFF, by decide, by decide⟩

/-! ## C229: paths that are not terminated -/

theorem erase_append {b : Nat} {new bs : List Nat} (h : b ∉ new) : (new ++ b :: bs).erase b = new ++ bs := by
  rw [List.erase_append_right _ h, List.erase_cons_head]

/-- The functions that take a string view do what the function with a terminated path does with the characters before the first zero, and the copy of the
path is given back whatever happens. If there is no memory for it, nothing is done. -/
theorem C229_view {α : Type} (p : List Byte) (refused : α) (run : List Byte → World → C (α × World)) (w : World)
    (hrun : ∀ v, ∃ r v' new, run (p.takeWhile (· ≠ 0)) v = .ok (r, v') ∧ v'.blocks = new ++ v.blocks ∧ ∀ b ∈ new, v.next ≤ b) :
    ∃ r w', withView p refused run w = .ok (r, w') ∧
      ((r = refused ∧ false ∈ w.allocs ∧ w'.blocks = w.blocks ∧ w'.tree = w.tree ∧ w'.streams = w.streams ∧ w'.dirs = w.dirs) ∨
       (∃ v v' new, (∃ bs m as, v = { w with blocks := bs, next := m, allocs := as }) ∧ run (p.takeWhile (· ≠ 0)) v = .ok (r, v') ∧ v'.blocks = new ++ v.blocks ∧
         w' = { v' with blocks := new ++ w.blocks })) := by
  rw [withView]
  by_cases h : p.length < sboSize
  · rw [toPlatformPath, if_pos h]
    dsimp only
    obtain ⟨r, v', new, e1, h1, h2⟩ := hrun w
    rw [cstr, e1, ok_bind]
    exact ⟨r, v', rfl, Or.inr ⟨w, v', new, ⟨_, _, _, rfl⟩, e1, h1, by rw [← h1]⟩⟩
  · rw [toPlatformPath, if_neg h, malloc]
    by_cases ha : w.allocs.headD true = true
    · rw [if_pos ha]
      dsimp only
      obtain ⟨r, v', new, e1, h1, h2⟩ := hrun { w with blocks := w.next :: w.blocks, next := w.next + 1, allocs := w.allocs.tail }
      rw [cstr, e1, ok_bind]
      dsimp only at h1 h2 ⊢
      have hn : w.next ∉ new := fun hx => absurd (h2 _ hx) (by omega)
      rw [destroyPath, free, if_pos (by rw [h1]; simp), ok_bind, h1, erase_append hn]
      exact ⟨r, _, rfl, Or.inr ⟨_, v', new, ⟨_, _, _, rfl⟩, e1, h1, rfl⟩⟩
    · rw [if_neg ha]
      refine ⟨_, _, rfl, Or.inl ⟨rfl, ?_, rfl, rfl, rfl, rfl⟩⟩
      cases hx : w.allocs with
      | nil => rw [hx] at ha; exact absurd rfl ha
      | cons a as => rw [hx] at ha; cases a <;> simp_all

/-- Deleting is such a function. -/
example (p : List Byte) (v : World) : ∃ r v' new, (fun p w => .ok (deleteFile p w) : List Byte → World → C (Errno × World)) p v = .ok (r, v') ∧ v'.blocks = new ++ v.blocks ∧ ∀ b ∈ new, v.next ≤ b :=
  ⟨(deleteFile p v).1, (deleteFile p v).2, [], rfl, by rw [(deleteFile_snd p v).1, (remove_calm p v).1.blocks]; rfl, fun _ h => by cases h⟩

/-- Creating directories is such a function. -/
example (p : List Byte) (v : World) : ∃ r v' new, createDirectory p v = .ok (r, v') ∧ v'.blocks = new ++ v.blocks ∧ ∀ b ∈ new, v.next ≤ b := by
  obtain ⟨r, v', h1, _, _, h2⟩ := C220_memory p v
  exact ⟨r, v', [], h1, h2.1, fun _ h => by cases h⟩

/-- The same for the functions with two paths. -/
theorem C229_views {α : Type} (p q : List Byte) (refused : α) (run : List Byte → List Byte → World → C (α × World)) (w : World)
    (hrun : ∀ v, ∃ r v', run (p.takeWhile (· ≠ 0)) (q.takeWhile (· ≠ 0)) v = .ok (r, v') ∧ v'.blocks = v.blocks) :
    ∃ r w', withViews p q refused run w = .ok (r, w') ∧ w'.blocks = w.blocks ∧
      ((r = refused ∧ false ∈ w.allocs ∧ w'.tree = w.tree ∧ w'.streams = w.streams ∧ w'.dirs = w.dirs) ∨
       (∃ v v', (∃ bs m as, v = { w with blocks := bs, next := m, allocs := as }) ∧ run (p.takeWhile (· ≠ 0)) (q.takeWhile (· ≠ 0)) v = .ok (r, v') ∧
         w' = { v' with blocks := w.blocks })) := by
  rw [withViews]
  have hx : w.allocs.headD true ≠ true → false ∈ w.allocs := by
    intro ha
    cases hx : w.allocs with
    | nil => rw [hx] at ha; exact absurd rfl ha
    | cons a as => rw [hx] at ha; cases a <;> simp_all
  have hy : w.allocs.tail.headD true ≠ true → false ∈ w.allocs := by
    intro ha
    apply List.mem_of_mem_tail
    cases hx : w.allocs.tail with
    | nil => rw [hx] at ha; exact absurd rfl ha
    | cons a as => rw [hx] at ha; cases a <;> simp_all
  by_cases h : p.length < sboSize
  · rw [toPlatformPath, if_pos h]
    dsimp only
    by_cases h' : q.length < sboSize
    · rw [toPlatformPath, if_pos h']
      dsimp only
      obtain ⟨r, v', e1, h1⟩ := hrun w
      rw [cstr, cstr, e1, ok_bind]
      exact ⟨r, v', rfl, h1, Or.inr ⟨w, v', ⟨_, _, _, rfl⟩, e1, by rw [← h1]⟩⟩
    · rw [toPlatformPath, if_neg h', malloc]
      by_cases ha : w.allocs.headD true = true
      · rw [if_pos ha]
        dsimp only
        obtain ⟨r, v', e1, h1⟩ := hrun { w with blocks := w.next :: w.blocks, next := w.next + 1, allocs := w.allocs.tail }
        rw [cstr, cstr, e1, ok_bind]
        dsimp only at h1 ⊢
        rw [destroyPath, ok_bind, destroyMade, destroyPath, free_head h1, ok_bind]
        exact ⟨r, _, rfl, rfl, Or.inr ⟨_, v', ⟨_, _, _, rfl⟩, e1, rfl⟩⟩
      · rw [if_neg ha]
        exact ⟨_, _, rfl, rfl, Or.inl ⟨rfl, hx ha, rfl, rfl, rfl⟩⟩
  · rw [toPlatformPath, if_neg h, malloc]
    by_cases ha : w.allocs.headD true = true
    · rw [if_pos ha]
      dsimp only
      by_cases h' : q.length < sboSize
      · rw [toPlatformPath, if_pos h']
        dsimp only
        obtain ⟨r, v', e1, h1⟩ := hrun { w with blocks := w.next :: w.blocks, next := w.next + 1, allocs := w.allocs.tail }
        rw [cstr, cstr, e1, ok_bind]
        dsimp only at h1 ⊢
        rw [destroyPath, free_head h1, ok_bind]
        exact ⟨r, _, rfl, rfl, Or.inr ⟨_, v', ⟨_, _, _, rfl⟩, e1, rfl⟩⟩
      · rw [toPlatformPath, if_neg h', malloc]
        dsimp only
        by_cases hb : w.allocs.tail.headD true = true
        · rw [if_pos hb]
          dsimp only
          obtain ⟨r, v', e1, h1⟩ := hrun { w with blocks := (w.next + 1) :: w.next :: w.blocks, next := w.next + 1 + 1, allocs := w.allocs.tail.tail }
          rw [cstr, cstr, e1, ok_bind]
          dsimp only at h1 ⊢
          rw [destroyPath, free, if_pos (by rw [h1]; simp), ok_bind, h1, destroyMade, destroyPath]
          have he : ((w.next + 1) :: w.next :: w.blocks).erase w.next = (w.next + 1) :: w.blocks := by
            rw [List.erase_cons_tail (by simp), List.erase_cons_head]
          rw [he, free_head (bs := w.blocks) rfl, ok_bind]
          exact ⟨r, _, rfl, rfl, Or.inr ⟨_, v', ⟨_, _, _, rfl⟩, e1, rfl⟩⟩
        · rw [if_neg hb]
          dsimp only
          rw [destroyPath, free_head (bs := w.blocks) rfl, ok_bind]
          exact ⟨_, _, rfl, rfl, Or.inl ⟨rfl, hy hb, rfl, rfl, rfl⟩⟩
    · rw [if_neg ha]
      exact ⟨_, _, rfl, rfl, Or.inl ⟨rfl, hx ha, rfl, rfl, rfl⟩⟩

/-- Renaming is such a function. -/
example (p q : List Byte) (flags : Flags) (v : World) : ∃ r v', renameFileEx p q flags v = .ok (r, v') ∧ v'.blocks = v.blocks := by
  obtain ⟨r, v', h1, _, _, h2⟩ := C224_memory p q flags v
  exact ⟨r, v', h1, h2⟩

end Tm.File
