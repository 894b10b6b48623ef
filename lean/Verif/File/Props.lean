import Verif.File.WriteLemmas

/-!
Reading and writing files and creating directories. The words of the statements are those of `Spec.lean`; the operating system is that of `Os.lean`. A
world carries a plan that says how every call of the operating system turns out, so that a statement about all worlds is one about all of these histories.
-/

namespace Tm.File

/-! ## Examples -/

instance : DecidableEq (Except Errno (Option Node))
  | .error a, .error b => decidable_of_iff (a = b) ⟨fun h => by rw [h], fun h => by injection h⟩
  | .ok a, .ok b => decidable_of_iff (a = b) ⟨fun h => by rw [h], fun h => by injection h⟩
  | .error _, .ok _ => isFalse fun h => by cases h
  | .ok _, .error _ => isFalse fun h => by cases h

/-- `a`, `b` and so on. -/
def la : Byte := 0x61
def lb : Byte := 0x62
def lf : Byte := 0x66
def lx : Byte := 0x78

/-- The root, the directory `/a` and the file `/a/f` with three bytes. -/
def demoTree : Tree := fun q =>
  if q = [] then some .dir else if q = [[la]] then some .dir else if q = [[la], [lf]] then some (.file [1, 2, 3]) else none

/-- A world in which everything goes well; the current directory is `/a`. -/
def demo : World where
  tree := demoTree
  cwd := [[la]]
  exe := [slash, la, slash, lx]
  entries := fun _ => []
  errno := 0
  streams := []
  dirs := []
  blocks := [0]
  next := 1
  plan := []
  allocs := []
  junk := 0xCD
  past := []

theorem demo_fresh : Fresh demo := ⟨by intro s hs; exact absurd hs (by rw [demo]; simp), by intro s hs; exact absurd hs (by rw [demo]; simp), by decide⟩

theorem demo_quiet : Quiet demo := ⟨by intro e he; exact absurd he (by rw [demo]; simp), by intro e he; exact absurd he (by rw [demo]; simp)⟩

theorem of_takes {P : List (List Byte) → Prop} {l : List (List Byte)} (h : ∀ n, n < l.length + 1 → P (l.take n)) : ∀ q, q <+: l → P q := by
  intro q hq
  rw [List.prefix_iff_eq_take.1 hq]
  exact h _ (Nat.lt_succ_of_le hq.length_le)

theorem demo_here : Here demo := by
  exact of_takes (by decide)

/-! ## C214: reading a file -/

/-- Whatever the operating system and the allocator do, reading a file is defined. All streams opened are closed, and of the memory only the contents remain:
giving them back with `tmu_destroy_contents` leaves the blocks there were before. -/
theorem C214_memory (p : List Byte) (w : World) (hw : Fresh w) :
    ∃ r w', readFile p w = .ok (r, w') ∧ w'.streams = w.streams ∧ w'.dirs = w.dirs ∧ (r.contents.block = none → r.contents.size = 0) ∧
      (r.contents.block ≠ none → r.contents.size ≤ r.contents.cells.length) ∧ ∃ w'', destroyContents r.contents w' = .ok w'' ∧ w''.blocks = w.blocks := by
  obtain ⟨r, w', e1, h1, h2, h3, h4, h5, h6, h7, h8, _⟩ := readFile_spec p w hw
  refine ⟨r, w', e1, h1, h2, h8, fun h => (h7 h).1, ?_⟩
  cases hb : r.contents.block with
  | none =>
    refine ⟨w', by rw [destroyContents, hb], ?_⟩
    rw [h3, hb]
    rfl
  | some b =>
    have ho : Owns w.blocks r.contents w' := ⟨⟨b, hb, by rw [h3, hb]; rfl⟩, (h7 (by rw [hb]; simp)).1, (h7 (by rw [hb]; simp)).2⟩
    exact ⟨_, destroy_spec ho, rfl⟩

example : ∃ r w', readFile [lf] demo = .ok (r, w') ∧ r.ec = 0 ∧ r.contents.cells = [1, 2, 3] ∧ w'.blocks = [2, 0] ∧ w'.streams.length = 0 := by
  refine ⟨_, _, rfl, ?_⟩
  decide

/-- If reading succeeds, the contents are the bytes of the file, all of them and nothing else, and no file was changed, however the bytes arrived and
whichever calls failed; as long as no other program writes to the files. -/
theorem C214_exact (p : List Byte) (w : World) (hw : Fresh w) (ha : Alone w) (r : ContentsResult) (w' : World) (h : readFile p w = .ok (r, w')) :
    w'.tree = w.tree ∧ (r.ec = 0 → find w.tree w.cwd p = .ok (some (.file (r.contents.cells.take r.contents.size)))) := by
  obtain ⟨r1, w1, e1, h1, h2, h3, h4, h5, h6, h7, h8, h9, h10, _⟩ := readFile_spec p w hw
  rw [e1] at h
  injection h with h
  injection h with ha' hb'
  subst ha' hb'
  refine ⟨h9 ha, fun he => ?_⟩
  obtain ⟨b, g1, g2⟩ := h10 ha he
  rw [g1, g2]

example : Fresh { demo with plan := [{}, { fail := true, amount := 2 }] } ∧ Alone { demo with plan := [{}, { fail := true, amount := 2 }] } ∧
    (∃ r w', readFile [lf] { demo with plan := [{}, { fail := true, amount := 2 }] } = .ok (r, w') ∧ r.ec = EIO) := by
  refine ⟨⟨demo_fresh.1, demo_fresh.2, demo_fresh.3⟩, ?_, _, _, rfl, by decide⟩
  intro e he
  rcases List.mem_cons.1 he with rfl | he
  · rfl
  · rw [List.mem_singleton.1 he]

/-- When nothing goes wrong reading a file that is there succeeds, and otherwise the error says what is missing. -/
theorem C214_result (p : List Byte) (w : World) (hw : Fresh w) (hq : Quiet w) (r : ContentsResult) (w' : World) (h : readFile p w = .ok (r, w')) :
    (∀ b, find w.tree w.cwd p = .ok (some (.file b)) → r.ec = 0) ∧ (find w.tree w.cwd p = .ok none → r.ec = ENOENT) ∧ (∀ e, find w.tree w.cwd p = .error e → r.ec = e) := by
  obtain ⟨r1, w1, e1, h1, h2, h3, h4, h5, h6, h7, h8, h9, h10, h11, h12, h13, _⟩ := readFile_spec p w hw
  rw [e1] at h
  injection h with h
  injection h with ha' hb'
  subst ha' hb'
  refine ⟨fun b hb => h11 hq ⟨b, hb⟩, h13 hq, fun e he => h12 hq e he ?_⟩
  rcases find_error he with rfl | rfl <;> decide

example : find demo.tree demo.cwd [lf] = .ok (some (.file [1, 2, 3])) ∧ find demo.tree demo.cwd [lx] = .ok none ∧ find demo.tree demo.cwd [lx, slash, lx] = .error ENOENT := by decide

/-! ## C216: writing a file -/

/-- Whatever happens, writing a file is defined, every stream is closed and no memory is lost. -/
theorem C216_memory (p data : List Byte) (flags : Flags) (w : World) (hw : Fresh w) :
    ∃ r w', writeFileEx p data flags w = .ok (r, w') ∧ w'.streams = w.streams ∧ w'.dirs = w.dirs ∧ w'.blocks = w.blocks := by
  rw [writeFileEx, writeFileExT]
  split
  · obtain ⟨r, w', e1, h1, _⟩ := writeInternal_spec p data { flags with bom := false } w hw
    exact ⟨r, w', e1, h1.streams, h1.dirs, h1.blocks⟩
  · exact ⟨_, w, rfl, rfl, rfl, rfl⟩

example : ∃ r w', writeFileEx [lx, slash, lx] [7] ⟨true, false, false, false⟩ demo = .ok (r, w') ∧ r = ⟨1, 0⟩ ∧ w'.tree [[la], [lx], [lx]] = some (.file [7]) := by
  refine ⟨_, _, rfl, ?_⟩
  decide

/-- Writing changes nothing but the one file, apart from directories it was asked to create, and what is in the file is a beginning of the data, whichever
calls fail; as long as no other program writes to the files. -/
theorem C216_prefix (p data : List Byte) (flags : Flags) (w : World) (hw : Fresh w) (ha : Alone w) (r : WriteResult) (w' : World) (h : writeFileEx p data flags w = .ok (r, w')) :
    ∃ t, Grows w.tree t ∧ (flags.createTree = false → t = w.tree) ∧ (w'.tree = t ∨ ∃ b, b <+: data ∧ w'.tree = place t (resolve w.cwd p) (some (.file b))) ∧
      (r.ec = 0 → r.written = data.length) := by
  rw [writeFileEx, writeFileExT] at h
  split at h
  · obtain ⟨r1, w1, e1, h1, h2, _⟩ := writeInternal_spec p data { flags with bom := false } w hw
    rw [e1] at h
    injection h with h
    injection h with ha' hb'
    subst ha' hb'
    obtain ⟨t, g1, g2, g3, g4⟩ := h2 ha
    exact ⟨t, g1, g2, g3, fun hr => (g4 hr).1⟩
  · injection h with h
    injection h with ha' hb'
    subst ha' hb'
    exact ⟨w.tree, Grows.rfl, fun _ => rfl, Or.inl rfl, fun hx => absurd hx (by decide)⟩

example : ∃ r w', writeFileEx [lf] [7, 8, 9] ⟨false, true, false, false⟩ { demo with plan := [{}, { fail := true, amount := 2 }] } = .ok (r, w') ∧ r = ⟨2, EIO⟩ ∧
    w'.tree [[la], [lf]] = some (.file [7, 8]) := by
  refine ⟨_, _, rfl, ?_⟩
  decide

/-- Part of C216: if writing succeeds and no call failed, the file has exactly the data in it. Missing: this is not so when closing the file fails. -/
theorem C216_exact_partial (p data : List Byte) (flags : Flags) (w : World) (hw : Fresh w) (ha : Alone w) (hn : NoFail w) (r : WriteResult) (w' : World)
    (h : writeFileEx p data flags w = .ok (r, w')) (hr : r.ec = 0) : find w'.tree w.cwd p = .ok (some (.file data)) := by
  rw [writeFileEx, writeFileExT] at h
  split at h
  · obtain ⟨r1, w1, e1, h1, h2, _⟩ := writeInternal_spec p data { flags with bom := false } w hw
    rw [e1] at h
    injection h with h
    injection h with ha' hb'
    subst ha' hb'
    obtain ⟨t, g1, g2, g3, g4⟩ := h2 ha
    obtain ⟨_, g5, b, _, g6, g7⟩ := g4 hr
    rw [g6, g7 hn]
    have htr := g5.trailing
    rcases g5 with ⟨g5, _⟩ | ⟨b', g5⟩ <;> exact find_place g5 _ (Or.inr htr)
  · injection h with h
    injection h with ha' hb'
    subst ha' hb'
    exact absurd hr (by decide)

example : Alone demo ∧ NoFail demo ∧ ∃ r w', writeFileEx [lf] [7, 8, 9] ⟨false, true, false, false⟩ demo = .ok (r, w') ∧ r.ec = 0 := by
  refine ⟨demo_quiet.alone, demo_quiet.noFail, _, _, rfl, ?_⟩
  decide

/-- C216 fails: the data wait in the buffer of the stream, writing them out fails when the file is closed, and nobody looks. The result says that all bytes
were written and that there was no error; the file is empty, and what was in it before is gone. -/
theorem C216_not_written : ∃ w : World, Fresh w ∧ Alone w ∧ find w.tree w.cwd [lf] = .ok (some (.file [1, 2, 3])) ∧
    ∃ r w', writeFile [lf] [7, 8, 9] w = .ok (r, w') ∧ r = ⟨3, 0⟩ ∧ find w'.tree w'.cwd [lf] = .ok (some (.file [])) := by
  refine ⟨{ demo with plan := [{}, {}, { fail := true, err := 28 }] }, ⟨demo_fresh.1, demo_fresh.2, demo_fresh.3⟩, ?_, by decide, _, _, rfl, by decide, by decide⟩
  intro e he
  rcases List.mem_cons.1 he with rfl | he
  · rfl
  · rcases List.mem_cons.1 he with rfl | he
    · rfl
    · rw [List.mem_singleton.1 he]

/-- When nothing goes wrong and the file may be written, writing succeeds. -/
theorem C216_succeeds (p data : List Byte) (flags : Flags) (w : World) (hw : Fresh w) (hq : Quiet w) (hat : flags.atomic = false) (hc : flags.createTree = false)
    (hok : Writable w.tree w.cwd p) (ho : flags.overwrite = true ∨ find w.tree w.cwd p = .ok none) :
    ∃ w', writeFileEx p data flags w = .ok (⟨data.length, 0⟩, w') ∧ w'.tree = place w.tree (resolve w.cwd p) (some (.file data)) := by
  rw [writeFileEx, writeFileExT, if_pos (by rw [hat]; rfl)]
  obtain ⟨r, w', e1, h1, h2, h3, h4, _⟩ := writeInternal_spec p data { flags with bom := false } w hw
  have hr := h4 hq (by
    rcases ho with ho | ho
    · exact Or.inl ho
    · exact Or.inr (by intro b hx; rw [ho] at hx; cases hx)) hc hok
  obtain ⟨t, g1, g2, g3, g4⟩ := h2 hq.alone
  obtain ⟨k1, _, b, _, k2, k3⟩ := g4 hr
  refine ⟨w', ?_, by rw [k2, k3 hq.noFail, g2 hc]⟩
  rw [e1, ← k1, ← hr]

example : Writable demo.tree demo.cwd [lx] ∧ find demo.tree demo.cwd [lx] = .ok none ∧ Writable demo.tree demo.cwd [lf] :=
  ⟨Or.inl (by decide), by decide, Or.inr ⟨[1, 2, 3], by decide⟩⟩

/-! ## C217: a file that must not be overwritten -/

/-- Part of C217: without `tmu_overwrite` a file that is there is kept, whichever calls fail, and the function reports an error. Missing: other programs. A
call that fails must not say that there is no such file. -/
theorem C217_kept_partial (p data : List Byte) (flags : Flags) (w : World) (hw : Fresh w) (ha : Alone w) (hh : Honest w) (ho : flags.overwrite = false) (old : List Byte)
    (hf : find w.tree w.cwd p = .ok (some (.file old))) (r : WriteResult) (w' : World) (h : writeFileEx p data flags w = .ok (r, w')) :
    r.ec ≠ 0 ∧ find w'.tree w.cwd p = .ok (some (.file old)) ∧ Grows w.tree w'.tree ∧ (flags.createTree = false → w'.tree = w.tree) := by
  rw [writeFileEx, writeFileExT] at h
  split at h
  · obtain ⟨r1, w1, e1, h1, h2, h3, _⟩ := writeInternal_spec p data { flags with bom := false } w hw
    rw [e1] at h
    injection h with h
    injection h with ha' hb'
    subst ha' hb'
    obtain ⟨g1, g2, g3⟩ := h3 ha hh ho old hf
    exact ⟨g1, grows_find hf g2, g2, g3⟩
  · injection h with h
    injection h with ha' hb'
    subst ha' hb'
    exact ⟨by decide, hf, Grows.rfl, fun _ => rfl⟩

example : Honest { demo with plan := [{ fail := true, err := 13 }] } ∧ find demo.tree demo.cwd [lf] = .ok (some (.file [1, 2, 3])) ∧
    (∃ r w', writeFileEx [lf] [7] ⟨false, false, false, false⟩ demo = .ok (r, w') ∧ r.ec = EEXIST) := by
  refine ⟨?_, by decide, _, _, rfl, by decide⟩
  intro e he _
  rw [List.mem_singleton.1 he]
  decide

/-- C217 fails: another program creates the file between the check and the opening, and it is overwritten. -/
theorem C217_not_raced : ∃ w : World, Fresh w ∧ NoFail w ∧ ∃ before after : Tree, w.plan = [{}, { others := fun _ => after }] ∧ w.tree = before ∧
    find after w.cwd [lx] = .ok (some (.file [1])) ∧ ∃ r w', writeFileEx [lx] [7, 8] ⟨false, false, false, false⟩ w = .ok (r, w') ∧ r = ⟨2, 0⟩ ∧
      find w'.tree w'.cwd [lx] = .ok (some (.file [7, 8])) := by
  refine ⟨{ demo with plan := [{}, { others := fun _ => place demoTree [[la], [lx]] (some (.file [1])) }] }, ⟨demo_fresh.1, demo_fresh.2, demo_fresh.3⟩, ?_, _, _, rfl, rfl, by decide, _, _, rfl, by decide, by decide⟩
  intro e he
  rcases List.mem_cons.1 he with rfl | he
  · rfl
  · rw [List.mem_singleton.1 he]

/-! ## C218: writing UTF-8 with a byte order mark -/

/-- C218 fails: `tmu_write_file_as_utf8`, which asks for a byte order mark, writes the same bytes as `tmu_write_file`, for all contents. No mark is written. -/
theorem C218_not_marked (p data : List Byte) (flags : Flags) (w : World) :
    writeFileAsUtf8Ex p data flags w = writeFileEx p data flags w ∧ writeFileAsUtf8 p data w = writeFile p data w := by
  have h : ∀ flags : Flags, writeFileExT p data flags w = writeFileExT p data { flags with bom := false } w := by
    intro flags
    rfl
  refine ⟨h flags, ?_⟩
  rw [writeFile, writeFileEx, writeFileAsUtf8, writeFileAsUtf8Ex]
  exact h _

/-- Part of C218: if nothing goes wrong the bytes of the text are in the file. Missing: the byte order mark before them. -/
theorem C218_bytes_partial (p data : List Byte) (w : World) (hw : Fresh w) (hq : Quiet w) (hok : Writable w.tree w.cwd p) :
    ∃ w', writeFileAsUtf8 p data w = .ok (⟨data.length, 0⟩, w') ∧ find w'.tree w.cwd p = .ok (some (.file data)) := by
  rw [(C218_not_marked p data ⟨false, true, true, false⟩ w).2]
  obtain ⟨w', h1, h2⟩ := C216_succeeds p data ⟨false, true, false, false⟩ w hw hq rfl rfl hok (Or.inl rfl)
  refine ⟨w', h1, ?_⟩
  exact C216_exact_partial p data ⟨false, true, false, false⟩ w hw hq.alone hq.noFail _ w' h1 rfl

/-- The file after `tmu_write_file_as_utf8` of one letter: it begins with the letter. -/
example : ∃ r w', writeFileAsUtf8 [lx] [la] demo = .ok (r, w') ∧ r = ⟨1, 0⟩ ∧ find w'.tree w'.cwd [lx] = .ok (some (.file [la])) := by
  refine ⟨_, _, rfl, ?_⟩
  decide

/-! ## C219: writing all or nothing -/

/-- With `tmu_atomic_write` no file is ever written: the result is an error, and nothing is touched, in every world. So a file has its old contents or the new
ones at every moment, since it has the old ones. -/
theorem C219_atomic (p data : List Byte) (flags : Flags) (hat : flags.atomic = true) (w : World) :
    writeFileEx p data flags w = .ok (⟨0, EIO⟩, w) ∧ writeFileAsUtf8Ex p data flags w = .ok (⟨0, EIO⟩, w) := by
  rw [writeFileEx, writeFileAsUtf8Ex, writeFileExT, writeFileExT, if_neg (by dsimp only; rw [hat]; simp), if_neg (by rw [hat]; simp)]
  exact ⟨rfl, rfl⟩

/-- Without the flag the file is seen in between with nothing in it: what was there is gone and the new bytes have not arrived. -/
theorem C219_plain_torn : ∃ w : World, Fresh w ∧ Quiet w ∧ w.past = [] ∧ ∃ r w', writeFile [lf] [7, 8, 9] w = .ok (r, w') ∧ r.ec = 0 ∧ ∃ t ∈ w'.past, find t w.cwd [lf] = .ok (some (.file [])) := by
  refine ⟨demo, demo_fresh, demo_quiet, rfl, _, _, rfl, by decide, place demoTree [[la], [lf]] (some (.file [])), ?_, by decide⟩
  exact List.mem_cons_of_mem _ (List.mem_cons_of_mem _ (List.mem_singleton.2 rfl))

/-! ## C220: creating a directory -/

/-- Whatever happens, creating a directory is defined and no memory is lost. Nothing is changed, apart from directories that are created where there was
nothing. -/
theorem C220_memory (p : List Byte) (w : World) :
    ∃ ec w', createDirectory p w = .ok (ec, w') ∧ w'.streams = w.streams ∧ w'.dirs = w.dirs ∧ w'.blocks = w.blocks ∧ (Alone w → Grows w.tree w'.tree) := by
  obtain ⟨ec, w', e1, h1, h2, _⟩ := createInternal_spec p w
  exact ⟨ec, w', e1, h1.streams, h1.dirs, h1.blocks, h2⟩

example : ∃ ec w', createDirectory [lx, slash, lb] { demo with plan := [{}, {}, { fail := true, err := 28 }] } = .ok (ec, w') ∧ ec = 28 ∧ w'.tree [[la], [lx]] = some .dir ∧
    w'.tree [[la], [lx], [lb]] = none := by
  refine ⟨_, _, rfl, ?_⟩
  decide

/-- Part of C220: if nothing goes wrong, a directory given by a path that is not absolute is created, with all directories on the way, and nothing else is
changed. Missing: absolute paths, `~/`, and paths on which there is a file. -/
theorem C220_created_partial (p : List Byte) (w : World) (hq : Quiet w) (hrel : p.head? ≠ some slash) (ht : p ≠ [0x7E, slash]) (hh : Here w) (hc : Clear w.tree (resolve w.cwd p)) :
    ∃ w', createDirectory p w = .ok (0, w') ∧ w'.tree = made w.tree (resolve w.cwd p) := by
  obtain ⟨ec, w', e1, h1, h2, h3, h4⟩ := createInternal_spec p w
  have hr : resolve w.cwd p = w.cwd ++ names p := by rw [resolve, if_neg hrel]
  rw [hr] at hc ⊢
  obtain ⟨g1, g2⟩ := h4 hq hrel ht hh hc
  subst g1
  exact ⟨w', e1, g2⟩

example : Here demo ∧ Clear demo.tree (resolve demo.cwd [lx, slash, slash, lb, slash]) ∧ resolve demo.cwd [lx, slash, slash, lb, slash] = [[la], [lx], [lb]] := by
  refine ⟨demo_here, ?_, by decide⟩
  exact of_takes (by decide)

theorem find_empty (t : Tree) (cwd : List (List Byte)) : find t cwd [] = .error ENOENT := by rw [find, if_pos rfl]

/-- C220 fails for every absolute path of something that is not there yet: the first attempt is to create the directory with the empty name, and the error
of that is returned. Nothing is created. -/
theorem C220_not_absolute (p : List Byte) (w : World) (hq : Quiet w) (hp : p ≠ []) (hn : ∀ n, find w.tree w.cwd (slash :: p) ≠ .ok (some n)) :
    ∃ w', createDirectory (slash :: p) w = .ok (ENOENT, w') ∧ w'.tree = w.tree := by
  have hrest : ∀ v : World, v.tree = w.tree → v.plan = w.plan → v.cwd = w.cwd → (∀ a ∈ v.allocs, a ∈ w.allocs) → ∃ v', createRest (slash :: p) v = .ok (ENOENT, v') ∧ Calm v v' ∧ v'.tree = w.tree := by
    intro v t1 t2 t3 t4
    have hqv : Quiet v := hq.same t2 t4
    obtain ⟨s1, s2, s3⟩ := stat_calm (slash :: p) v
    have hsnd := directoryExists_snd (slash :: p) v
    have hfst := existsOf_stat' (fun n => decide (n = .dir)) (slash :: p) v hqv.event.2.1
    rw [show existsOf (fun n => decide (n = .dir)) (stat (slash :: p) v) = directoryExists (slash :: p) v from rfl] at hfst
    rw [hqv.alone.others, t1, t3] at hfst
    have hno : (directoryExists (slash :: p) v).1 = ⟨false, 0⟩ := by
      rw [hfst]
      cases hfi : find w.tree w.cwd (slash :: p) with
      | error e => rfl
      | ok o =>
        cases o with
        | none => rfl
        | some n => exact absurd hfi (hn n)
    rw [createRest]
    generalize directoryExists (slash :: p) v = r at hsnd hno ⊢
    obtain ⟨e, v1⟩ := r
    dsimp only at hsnd hno ⊢
    subst hno hsnd
    rw [if_neg (by simp)]
    generalize stat (slash :: p) v = st at s1 s2 s3 ⊢
    have hq1 : Quiet st.2 := hqv.drop s1.plan (by rw [s2]; exact fun _ h => h)
    have hstr : strchr (slash :: p) 0 = some 0 := by rw [strchr, List.drop_zero]; rfl
    rw [hstr, createLoop.eq_def]
    dsimp only
    have hcut : cutAt (slash :: p) (some 0) = [] := rfl
    rw [hcut]
    obtain ⟨m1, _, _, m2⟩ := mkdir_spec [] st.2
    rw [find_empty, hq1.alone.others] at m2
    have hm : (mkdir [] st.2).1 = false ∧ (mkdir [] st.2).2.tree = st.2.tree ∧ (mkdir [] st.2).2.errno = ENOENT := by
      rcases m2 with ⟨_, m2, _⟩ | ⟨g1, g2, g3⟩
      · cases m2
      · refine ⟨g1, g2, ?_⟩
        have hw : walk st.2.tree [] (resolve st.2.cwd []) = none ∨ True := Or.inr trivial
        rw [mkdir]
        dsimp only
        rw [World.plain, if_neg (by rw [hq1.event.2.1]; simp), find_empty]
        rfl
    have hsingle : createSingle [] st.2 = (ENOENT, (mkdir [] st.2).2) := by
      rw [createSingle]
      generalize mkdir [] st.2 = m at hm ⊢
      obtain ⟨x1, x2⟩ := m
      obtain ⟨g1, g2, g3⟩ := hm
      dsimp only at g1 g2 g3
      subst g1
      dsimp only
      rw [g3]
      rfl
    rw [hsingle]
    refine ⟨_, rfl, s1.trans m1, ?_⟩
    rw [hm.2.1, s3, hqv.alone.others, t1]
  rw [createDirectory, createInternal_eq, if_neg (by simp), if_neg (by intro h; injection h with _ h; exact hp h), if_neg (by rintro (h | h) <;> exact absurd (List.cons.inj h).1 (by decide))]
  obtain ⟨r, w', e1, _, e2, e3⟩ := copied (slash :: p) w ENOMEM (fun v r v' => r = ENOENT ∧ v'.tree = w.tree) (createRest (slash :: p))
    (fun v t1 t2 t3 _ _ _ t4 _ _ => by
      obtain ⟨v', k1, k2, k3⟩ := hrest v t1 t2 t3 t4
      exact ⟨_, v', k1, k2, rfl, k3⟩)
    (fun _ _ _ _ h => h) (fun r w' => r = ENOENT ∧ w'.tree = w.tree) (fun _ _ _ _ _ _ _ _ h => h)
    (fun w' hx _ _ _ => absurd (hq.allocs _ hx) (by simp))
  subst e2
  exact ⟨w', e1, e3⟩

example : Quiet demo ∧ ∀ n, find demo.tree demo.cwd [slash, la, slash, lx] ≠ .ok (some n) := by
  refine ⟨demo_quiet, fun n h => ?_⟩
  have : find demo.tree demo.cwd [slash, la, slash, lx] = .ok none := by decide
  rw [this] at h
  cases h

/-- C220 fails when there is a file where the directory should be: the result says that all is well. -/
theorem C220_not_file : ∃ w : World, Quiet w ∧ Here w ∧ find w.tree w.cwd [lf] = .ok (some (.file [1, 2, 3])) ∧ ∃ w', createDirectory [lf] w = .ok (0, w') ∧ w'.tree = w.tree := by
  refine ⟨demo, demo_quiet, demo_here, by decide, _, rfl, rfl⟩

/-- C220 fails for `~/`, which is taken for the home directory here and for a directory with that name everywhere else. -/
theorem C220_not_home : ∃ w : World, Quiet w ∧ Here w ∧ find w.tree w.cwd [0x7E, slash] = .ok none ∧ ∃ w', createDirectory [0x7E, slash] w = .ok (0, w') ∧ w'.tree = w.tree :=
  ⟨demo, demo_quiet, demo_here, by decide, _, rfl, rfl⟩

/-! ## C221: creating the directories of a file -/

/-- Part of C221: with `tmu_create_directory_tree`, a file in directories some of which do not exist is written and the directories are created, if nothing
goes wrong. The name has none of the characters `/`, `\`, `:` and `~` in it. Missing: absolute paths, and names with these characters. -/
theorem C221_written_partial (d n data : List Byte) (flags : Flags) (w : World) (hw : Fresh w) (hq : Quiet w) (hat : flags.atomic = false) (hc : flags.createTree = true)
    (hrel : d.head? ≠ some slash) (hd : d ≠ [] ∧ d ≠ [0x7E, slash]) (hn : n ≠ [] ∧ n ≠ [0x2E]) (hch : ∀ b ∈ n, b ≠ 0x2F ∧ b ≠ 0x5C ∧ b ≠ 0x3A ∧ b ≠ 0x7E)
    (hh : Here w) (hcl : Clear w.tree (w.cwd ++ names d)) (hnone : w.tree (w.cwd ++ names d ++ [n]) = none) :
    ∃ w', writeFileEx (d ++ slash :: n) data flags w = .ok (⟨data.length, 0⟩, w') ∧
      w'.tree = place (made w.tree (w.cwd ++ names d)) (w.cwd ++ names d ++ [n]) (some (.file data)) := by
  rw [writeFileEx, writeFileExT, if_pos (by rw [hat]; rfl)]
  obtain ⟨r, w', e1, h1, h2, h3, _, h4⟩ := writeInternal_spec (d ++ slash :: n) data { flags with bom := false } w hw
  have hk : pathLen (d ++ slash :: n) = .ok d.length := pathLen_slash fun b hb hx => by
    obtain ⟨c1, c2, c3, c4⟩ := hch b hb
    rcases hx with hx | hx | hx | hx
    · exact c1 hx
    · exact c2 hx
    · exact c3 hx
    · exact c4 hx
  have htake : (d ++ slash :: n).take d.length = d := List.take_left
  have hsl : slash ∉ n := fun hx => (hch _ hx).1 rfl
  have hnames : names n = [n] := by
    rw [names, parts_plain hsl, List.filter_cons, if_pos (by rw [decide_eq_true hn.1, decide_eq_true hn.2]; rfl), List.filter_nil]
  have hres : resolve w.cwd (d ++ slash :: n) = w.cwd ++ names d ++ [n] := by
    rw [resolve, if_neg, names_append, hnames, List.append_assoc]
    cases hd' : d with
    | nil => exact absurd hd' hd.1
    | cons c d' => rw [hd'] at hrel; exact hrel
  have hne : (d ++ slash :: n) ≠ [] := by simp
  have hnotpre : ¬ (w.cwd ++ names d ++ [n]) <+: (w.cwd ++ names d) := by
    intro h
    have := h.length_le
    rw [List.length_append, List.length_singleton] at this
    omega
  have hat2 : made w.tree (w.cwd ++ names d) (w.cwd ++ names d ++ [n]) = none := by rw [made, if_neg hnotpre, hnone]
  have hfind : find (made w.tree (w.cwd ++ names d)) w.cwd (d ++ slash :: n) = .ok none := by
    rw [find_ok hne ?_ (by rw [hres]; exact Or.inl hat2), hres, hat2]
    rw [hres]
    intro q h1 h2
    rcases List.prefix_concat_iff.1 h1 with h1 | h1
    · exact absurd h1 h2
    · rw [made, if_pos h1]
  have htr : trailing (d ++ slash :: n) = false := by
    rw [trailing, show d ++ slash :: n = (d ++ [slash]) ++ n by simp, List.getLast?_append]
    refine decide_eq_false fun h => ?_
    cases hl : n.getLast? with
    | none => exact hn.1 (List.getLast?_eq_none_iff.1 hl)
    | some b =>
      rw [hl] at h
      injection h with h
      subst h
      exact hsl (List.mem_of_getLast? hl)
  have h5 := h4 hq hc _ hk
  rw [htake] at h5
  obtain ⟨g1, g2⟩ := h5 hrel hd.2 hh hcl (Or.inl ⟨hfind, htr⟩) (Or.inr (by intro b hx; rw [hfind] at hx; cases hx))
  rw [hres] at g2
  refine ⟨w', ?_, g2⟩
  obtain ⟨t, _, _, _, q4⟩ := h2 hq.alone
  rw [e1, ← (q4 g1).1, ← g1]

example : Clear demo.tree (demo.cwd ++ names [lx, slash, lb]) ∧ demo.tree (demo.cwd ++ names [lx, slash, lb] ++ [[lf]]) = none := by
  refine ⟨?_, by decide⟩
  exact of_takes (by decide)

/-- C221 fails: `~` is a character a name may have, as the names of backups do. Writing the file `x~`, which is in the current directory, also creates the
directory `x`, which nobody asked for. -/
theorem C221_not_tilde : ∃ w : World, Fresh w ∧ Quiet w ∧ Here w ∧ find w.tree w.cwd [lx] = .ok none ∧ ∃ r w', writeFileEx [lx, 0x7E] [7] ⟨true, true, false, false⟩ w = .ok (r, w') ∧ r.ec = 0 ∧
    find w'.tree w'.cwd [lx, 0x7E] = .ok (some (.file [7])) ∧ find w'.tree w'.cwd [lx] = .ok (some .dir) := by
  refine ⟨demo, demo_fresh, demo_quiet, demo_here, by decide, _, _, rfl, by decide, by decide, by decide⟩

/-! ## C222: what exists -/

/-- The answer of `tmu_file_exists`: whether there is a regular file, if the call succeeds. -/
theorem C222_file (p : List Byte) (w : World) (ha : Alone w) (hn : NoFail w) :
    (fileExists p w).1.ec = 0 ∧ ((fileExists p w).1.exists_ = true ↔ ∃ b, find w.tree w.cwd p = .ok (some (.file b))) ∧ (fileExists p w).2.tree = w.tree := by
  have h := existsOf_stat' isFile p w hn.event
  rw [ha.others] at h
  have h3 : (fileExists p w).2.tree = w.tree := by rw [fileExists_snd, (stat_calm p w).2.2, ha.others]
  refine ⟨?_, ?_, h3⟩
  · rw [fileExists, h]
    cases find w.tree w.cwd p with
    | error e => rfl
    | ok o => cases o <;> rfl
  · rw [fileExists, h]
    cases find w.tree w.cwd p with
    | error e => exact ⟨fun h => (by cases h), fun ⟨b, h⟩ => (by cases h)⟩
    | ok o =>
      cases o with
      | none => exact ⟨fun h => (by cases h), fun ⟨b, h⟩ => (by cases h)⟩
      | some n =>
        cases n with
        | file b => exact ⟨fun _ => ⟨b, rfl⟩, fun _ => rfl⟩
        | dir => exact ⟨fun h => (by cases h), fun ⟨b, h⟩ => (by cases h)⟩
        | other => exact ⟨fun h => (by cases h), fun ⟨b, h⟩ => (by cases h)⟩

/-- The answer of `tmu_directory_exists`: whether there is a directory, if the call succeeds. -/
theorem C222_directory (p : List Byte) (w : World) (ha : Alone w) (hn : NoFail w) :
    (directoryExists p w).1.ec = 0 ∧ ((directoryExists p w).1.exists_ = true ↔ find w.tree w.cwd p = .ok (some .dir)) ∧ (directoryExists p w).2.tree = w.tree := by
  have h := existsOf_stat' (fun n => decide (n = .dir)) p w hn.event
  rw [ha.others] at h
  have h3 : (directoryExists p w).2.tree = w.tree := by rw [directoryExists_snd, (stat_calm p w).2.2, ha.others]
  refine ⟨?_, ?_, h3⟩
  · rw [directoryExists, h]
    cases find w.tree w.cwd p with
    | error e => rfl
    | ok o => cases o <;> rfl
  · rw [directoryExists, h]
    cases find w.tree w.cwd p with
    | error e => exact ⟨fun h => (by cases h), fun h => (by cases h)⟩
    | ok o =>
      cases o with
      | none => exact ⟨fun h => (by cases h), fun h => (by cases h)⟩
      | some n =>
        cases n with
        | dir => exact ⟨fun _ => rfl, fun _ => rfl⟩
        | file b => exact ⟨fun h => (by cases h), fun h => (by cases h)⟩
        | other => exact ⟨fun h => (by cases h), fun h => (by cases h)⟩

/-- If the call fails for another reason than that there is nothing, the reason is reported, and the answer is never that there is something. -/
theorem C222_failed (p : List Byte) (w : World) (hh : Honest w) (hf : w.event.fail = true) : (fileExists p w).1 = ⟨false, w.event.err⟩ ∧ (directoryExists p w).1 = ⟨false, w.event.err⟩ := by
  refine ⟨fileExists_fail p w hf hh, ?_⟩
  obtain ⟨h1, h2, h3⟩ := hh.event hf
  have hs : stat p w = (none, w.start.stop w.event.err) := by rw [stat, World.plain, if_pos hf]
  have he : (w.start.stop w.event.err).errno = w.event.err := by
    show (if w.event.err = 0 then _ else _) = _
    rw [if_neg h1]
  rw [directoryExists, hs, existsOf]
  dsimp only
  rw [he, if_neg (by rintro (h | h); exact h2 h; exact h3 h)]

example : (fileExists [lf] demo).1 = ⟨true, 0⟩ ∧ (fileExists [0x2E] demo).1 = ⟨false, 0⟩ ∧ (directoryExists [0x2E] demo).1 = ⟨true, 0⟩ ∧ (directoryExists [lf, slash, lx] demo).1 = ⟨false, 0⟩ ∧
    (fileExists [lf] { demo with plan := [{ fail := true, err := 13 }] }).1 = ⟨false, 13⟩ := by decide

end Tm.File
