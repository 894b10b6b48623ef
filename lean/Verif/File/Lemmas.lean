import Verif.File.Model
import Verif.File.Spec

/-! Facts about the world, and reading. -/

namespace Tm.File

theorem Quiet.alone {w : World} (h : Quiet w) : Alone w := fun e he => (h.calls e he).1

theorem event_mem (w : World) : w.event = {} ∨ w.event ∈ w.plan := by
  rw [World.event]
  cases w.plan with
  | nil => exact Or.inl rfl
  | cons e es => exact Or.inr (by simp)

theorem Alone.event {w : World} (h : Alone w) : w.event.others = id := by
  rcases event_mem w with he | he
  · rw [he]
  · exact h _ he

theorem Quiet.event {w : World} (h : Quiet w) : w.event.others = id ∧ w.event.fail = false ∧ w.event.err = 0 := by
  rcases event_mem w with he | he
  · rw [he]; exact ⟨rfl, rfl, rfl⟩
  · exact h.calls _ he

@[simp] theorem start_streams (w : World) : w.start.streams = w.streams := rfl
@[simp] theorem start_dirs (w : World) : w.start.dirs = w.dirs := rfl
@[simp] theorem start_blocks (w : World) : w.start.blocks = w.blocks := rfl
@[simp] theorem start_next (w : World) : w.start.next = w.next := rfl
@[simp] theorem start_allocs (w : World) : w.start.allocs = w.allocs := rfl
@[simp] theorem start_cwd (w : World) : w.start.cwd = w.cwd := rfl
@[simp] theorem start_exe (w : World) : w.start.exe = w.exe := rfl
@[simp] theorem start_entries (w : World) : w.start.entries = w.entries := rfl
@[simp] theorem start_junk (w : World) : w.start.junk = w.junk := rfl
@[simp] theorem start_errno (w : World) : w.start.errno = w.errno := rfl
@[simp] theorem start_plan (w : World) : w.start.plan = w.plan.tail := rfl
@[simp] theorem start_past (w : World) : w.start.past = w.past := rfl

@[simp] theorem stop_streams (w : World) (e : Errno) : (w.stop e).streams = w.streams := rfl
@[simp] theorem stop_dirs (w : World) (e : Errno) : (w.stop e).dirs = w.dirs := rfl
@[simp] theorem stop_blocks (w : World) (e : Errno) : (w.stop e).blocks = w.blocks := rfl
@[simp] theorem stop_next (w : World) (e : Errno) : (w.stop e).next = w.next := rfl
@[simp] theorem stop_allocs (w : World) (e : Errno) : (w.stop e).allocs = w.allocs := rfl
@[simp] theorem stop_cwd (w : World) (e : Errno) : (w.stop e).cwd = w.cwd := rfl
@[simp] theorem stop_exe (w : World) (e : Errno) : (w.stop e).exe = w.exe := rfl
@[simp] theorem stop_entries (w : World) (e : Errno) : (w.stop e).entries = w.entries := rfl
@[simp] theorem stop_junk (w : World) (e : Errno) : (w.stop e).junk = w.junk := rfl
@[simp] theorem stop_plan (w : World) (e : Errno) : (w.stop e).plan = w.plan := rfl
@[simp] theorem stop_tree (w : World) (e : Errno) : (w.stop e).tree = w.tree := rfl
@[simp] theorem stop_past (w : World) (e : Errno) : (w.stop e).past = w.tree :: w.past := rfl

/-- What a call that is not about streams, directories or memory leaves alone. -/
structure Same (w w' : World) : Prop where
  streams : w'.streams = w.streams
  dirs : w'.dirs = w.dirs
  blocks : w'.blocks = w.blocks
  next : w'.next = w.next
  allocs : w'.allocs = w.allocs
  cwd : w'.cwd = w.cwd
  exe : w'.exe = w.exe
  entries : w'.entries = w.entries
  junk : w'.junk = w.junk

theorem Same.rfl {w : World} : Same w w := ⟨Eq.refl _, Eq.refl _, Eq.refl _, Eq.refl _, Eq.refl _, Eq.refl _, Eq.refl _, Eq.refl _, Eq.refl _⟩

theorem Same.trans {a b c : World} (h : Same a b) (g : Same b c) : Same a c :=
  ⟨g.1.trans h.1, g.2.trans h.2, g.3.trans h.3, g.4.trans h.4, g.5.trans h.5, g.6.trans h.6, g.7.trans h.7, g.8.trans h.8, g.9.trans h.9⟩

theorem Same.fresh {w w' : World} (h : Same w w') (g : Fresh w) : Fresh w' :=
  ⟨by rw [h.streams, h.next]; exact g.1, by rw [h.dirs, h.next]; exact g.2, by rw [h.blocks, h.next]; exact g.3⟩

/-- A call that fails, answers, or changes the tree. -/
theorem plain_same {α : Type} (w : World) (f : Tree → Except Errno (α × Tree)) : Same w (w.plain f).2 ∧ (w.plain f).2.plan = w.plan.tail := by
  rw [World.plain]
  split
  · exact ⟨⟨rfl, rfl, rfl, rfl, rfl, rfl, rfl, rfl, rfl⟩, rfl⟩
  · split
    · exact ⟨⟨rfl, rfl, rfl, rfl, rfl, rfl, rfl, rfl, rfl⟩, rfl⟩
    · exact ⟨⟨rfl, rfl, rfl, rfl, rfl, rfl, rfl, rfl, rfl⟩, rfl⟩

/-- How a call of this kind turns out. -/
theorem plain_cases {α : Type} (w : World) (f : Tree → Except Errno (α × Tree)) :
    (∃ e, (w.plain f).1 = none ∧ (w.plain f).2.tree = w.event.others w.tree ∧ (w.plain f).2.errno = (if e = 0 then w.errno else e) ∧
      ((w.event.fail = true ∧ e = w.event.err) ∨ (w.event.fail = false ∧ f (w.event.others w.tree) = .error e))) ∨
    (∃ a t, (w.plain f).1 = some a ∧ (w.plain f).2.tree = t ∧ (w.plain f).2.errno = (if w.event.err = 0 then w.errno else w.event.err) ∧ w.event.fail = false ∧
      f (w.event.others w.tree) = .ok (a, t)) := by
  rw [World.plain]
  by_cases h : w.event.fail = true
  · rw [if_pos h]
    exact Or.inl ⟨w.event.err, rfl, rfl, rfl, Or.inl ⟨h, rfl⟩⟩
  · rw [if_neg h]
    have h' : w.event.fail = false := by simpa using h
    have ht : w.start.tree = w.event.others w.tree := rfl
    rw [ht]
    cases hf : f (w.event.others w.tree) with
    | error e => exact Or.inl ⟨e, rfl, rfl, rfl, Or.inr ⟨h', rfl⟩⟩
    | ok a => exact Or.inr ⟨a.1, a.2, rfl, rfl, rfl, h', rfl⟩

theorem Alone.tail {w w' : World} (h : Alone w) (hp : w'.plan = w.plan.tail) : Alone w' := fun e he => h e (List.mem_of_mem_tail (hp ▸ he))

theorem Alone.same {w w' : World} (h : Alone w) (hp : w'.plan = w.plan) : Alone w' := fun e he => h e (hp ▸ he)

theorem place_self (t : Tree) (q : List (List Byte)) : place t q (t q) = t := by
  funext r
  rw [place]
  split
  · next h => rw [h]
  · rfl

theorem extend_nil (t : Tree) (q : List (List Byte)) : extend t q [] = t := by
  rw [extend]
  split
  · next old h => rw [List.append_nil, ← h, place_self]
  · rfl

theorem stream_head {w : World} {s : Stream} {l : List Stream} (h : w.streams = s :: l) : w.stream s.id = some s := by
  rw [World.stream, h, List.find?_cons, beq_self_eq_true]

theorem setStream_head {w : World} {s s' : Stream} {l : List Stream} (h : w.streams = s :: l) (hi : s'.id = s.id) (hl : ∀ x ∈ l, x.id ≠ s.id) :
    (w.setStream s').streams = s' :: l := by
  rw [World.setStream]
  dsimp only
  rw [h, List.map_cons, hi, if_pos rfl]
  congr 1
  refine (List.map_congr_left (g := id) fun x hx => ?_).trans (List.map_id l)
  rw [if_neg (hl x hx), id]

/-- The world in the middle of reading or writing: the stream is the last one that was opened. -/
structure Using (l : List Stream) (s : Stream) (w : World) : Prop where
  streams : w.streams = s :: l
  other : ∀ x ∈ l, x.id ≠ s.id

/-- One read. -/
theorem fread_spec {l : List Stream} {s : Stream} {w : World} (h : Using l s w) (n : Nat) :
    ∃ k s' w', fread s.id n w = .ok (s.rest.take k, w') ∧ Using l s' w' ∧ s'.id = s.id ∧ s'.rest = s.rest.drop k ∧ s'.pending = s.pending ∧ s'.isDir = s.isDir ∧
      (s.error = true → s'.error = true) ∧ k ≤ n ∧ (s'.error = false → s.isDir = false ∧ (s.rest.take k).length = min n s.rest.length) ∧
      w'.blocks = w.blocks ∧ w'.dirs = w.dirs ∧ w'.next = w.next ∧ w'.junk = w.junk ∧ w'.allocs = w.allocs ∧ w'.cwd = w.cwd ∧ w'.plan = w.plan.tail ∧
      w'.tree = w.event.others w.tree ∧
      (w.event.fail = false → w.event.err = 0 → s.isDir = false → s'.error = s.error ∧ w'.errno = w.errno) := by
  rw [fread, stream_head h.streams]
  dsimp only
  by_cases hf : w.event.fail = true
  · rw [if_pos hf]
    refine ⟨min w.event.amount (n - 1), { s with rest := s.rest.drop (min w.event.amount (n - 1)), error := true }, _, rfl, ⟨?_, h.other⟩, ?_, rfl, rfl, rfl, fun _ => rfl, by omega, fun hx => (by simp at hx), rfl, rfl, rfl, rfl, rfl, rfl, rfl, rfl, fun hx => ?_⟩
    · rw [stop_streams]
      exact setStream_head h.streams rfl h.other
    · rfl
    · rw [hf] at hx; cases hx
  · rw [if_neg hf]
    by_cases hd : s.isDir = true
    · rw [if_pos hd]
      refine ⟨0, { s with error := true }, (w.start.setStream { s with error := true }).stop EISDIR, rfl, ⟨?_, h.other⟩, ?_, rfl, rfl, rfl, fun _ => rfl, by omega, fun hx => (by simp at hx), rfl, rfl, rfl, rfl, rfl, rfl, rfl, rfl, fun _ _ hx => ?_⟩
      · rw [stop_streams]
        exact setStream_head h.streams rfl h.other
      · rfl
      · rw [hd] at hx; cases hx
    · rw [if_neg hd]
      refine ⟨n, { s with rest := s.rest.drop n }, _, rfl, ⟨?_, h.other⟩, ?_, rfl, rfl, rfl, fun hx => hx, Nat.le_refl _, fun _ => ⟨by simpa using hd, List.length_take⟩, rfl, rfl, rfl, rfl, rfl, rfl, rfl, rfl, fun _ he _ => ⟨rfl, ?_⟩⟩
      · rw [stop_streams]
        exact setStream_head h.streams rfl h.other
      · rfl
      · rw [he]; rfl

/-- Closing the stream. -/
theorem fclose_spec {l : List Stream} {s : Stream} {w : World} (h : Using l s w) :
    ∃ b w', fclose s.id w = .ok (b, w') ∧ w'.streams = l ∧ w'.blocks = w.blocks ∧ w'.dirs = w.dirs ∧ w'.next = w.next ∧ w'.junk = w.junk ∧ w'.allocs = w.allocs ∧
      w'.cwd = w.cwd ∧ w'.plan = w.plan.tail ∧
      w'.tree = extend (w.event.others w.tree) s.at_ (if w.event.fail then s.pending.take (min w.event.amount (s.pending.length - 1)) else s.pending) := by
  rw [fclose, stream_head h.streams]
  refine ⟨_, _, rfl, ?_, rfl, rfl, rfl, rfl, rfl, rfl, rfl, rfl⟩
  rw [stop_streams]
  dsimp only
  rw [h.streams, List.filter_cons, if_neg (by simp)]
  refine List.filter_eq_self.2 fun x hx => ?_
  simpa using h.other x hx

theorem malloc_cases (w : World) :
    (∃ w', malloc w = (some w.next, w') ∧ w'.blocks = w.next :: w.blocks ∧ w'.next = w.next + 1 ∧ w'.streams = w.streams ∧ w'.dirs = w.dirs ∧ w'.junk = w.junk ∧
      w'.plan = w.plan ∧ w'.tree = w.tree ∧ w'.cwd = w.cwd ∧ w'.errno = w.errno ∧ w'.allocs = w.allocs.tail ∧ w'.exe = w.exe) ∨
    (∃ w', malloc w = (none, w') ∧ w'.blocks = w.blocks ∧ w'.next = w.next ∧ w'.streams = w.streams ∧ w'.dirs = w.dirs ∧ w'.junk = w.junk ∧
      w'.plan = w.plan ∧ w'.tree = w.tree ∧ w'.cwd = w.cwd ∧ w'.errno = ENOMEM ∧ w'.allocs = w.allocs.tail ∧ w'.exe = w.exe ∧ false ∈ w.allocs) := by
  rw [malloc]
  by_cases h : w.allocs.headD true = true
  · rw [if_pos h]
    exact Or.inl ⟨_, rfl, rfl, rfl, rfl, rfl, rfl, rfl, rfl, rfl, rfl, rfl, rfl⟩
  · rw [if_neg h]
    refine Or.inr ⟨_, rfl, rfl, rfl, rfl, rfl, rfl, rfl, rfl, rfl, rfl, rfl, rfl, ?_⟩
    cases ha : w.allocs with
    | nil => rw [ha] at h; exact absurd rfl h
    | cons a as => rw [ha] at h; cases a <;> simp_all

theorem realloc_cases {w : World} {b : Nat} {bs : List Nat} (hb : w.blocks = b :: bs) :
    (∃ w', realloc b w = .ok (some w.next, w') ∧ w'.blocks = w.next :: bs ∧ w'.next = w.next + 1 ∧ w'.streams = w.streams ∧ w'.dirs = w.dirs ∧ w'.junk = w.junk ∧
      w'.plan = w.plan ∧ w'.tree = w.tree ∧ w'.cwd = w.cwd ∧ w'.errno = w.errno ∧ w'.allocs = w.allocs.tail ∧ w'.exe = w.exe) ∨
    (∃ w', realloc b w = .ok (none, w') ∧ w'.blocks = b :: bs ∧ w'.next = w.next ∧ w'.streams = w.streams ∧ w'.dirs = w.dirs ∧ w'.junk = w.junk ∧
      w'.plan = w.plan ∧ w'.tree = w.tree ∧ w'.cwd = w.cwd ∧ w'.errno = ENOMEM ∧ w'.allocs = w.allocs.tail ∧ w'.exe = w.exe ∧ false ∈ w.allocs) := by
  rw [realloc, if_pos (by rw [hb]; simp)]
  by_cases h : w.allocs.headD true = true
  · rw [if_pos h]
    exact Or.inl ⟨_, rfl, by show w.next :: w.blocks.erase b = _; rw [hb, List.erase_cons_head], rfl, rfl, rfl, rfl, rfl, rfl, rfl, rfl, rfl, rfl⟩
  · rw [if_neg h]
    refine Or.inr ⟨_, rfl, hb, rfl, rfl, rfl, rfl, rfl, rfl, rfl, rfl, rfl, rfl, ?_⟩
    cases ha : w.allocs with
    | nil => rw [ha] at h; exact absurd rfl h
    | cons a as => rw [ha] at h; cases a <;> simp_all

theorem free_head {w : World} {b : Nat} {bs : List Nat} (hb : w.blocks = b :: bs) : free b w = .ok { w with blocks := bs } := by
  rw [free, if_pos (by rw [hb]; simp), hb, List.erase_cons_head]

theorem resize_take {junk : Byte} {cells : List Byte} {n k : Nat} (h1 : k ≤ cells.length) (h2 : k ≤ n) : (resize junk cells n).take k = cells.take k := by
  rw [resize, List.take_append_of_le_length (by rw [List.length_take]; omega), List.take_take, Nat.min_eq_left h2]

theorem resize_length {junk : Byte} {cells : List Byte} {n : Nat} : (resize junk cells n).length = n := by
  rw [resize, List.length_append, List.length_take, List.length_replicate]
  omega

theorem copyAt_ok {cells src : List Byte} {pos : Nat} (h : pos + src.length ≤ cells.length) :
    ∃ c, copyAt cells pos src = .ok c ∧ c.length = cells.length ∧ c.take (pos + src.length) = cells.take pos ++ src := by
  rw [copyAt, if_pos h]
  refine ⟨_, rfl, ?_, ?_⟩
  · simp only [List.length_append, List.length_take, List.length_drop]
    omega
  · rw [List.take_append_of_le_length (by rw [List.length_append, List.length_take]; omega), List.take_of_length_le]
    rw [List.length_append, List.length_take]
    omega

/-- Contents that own the last block that was allocated. -/
structure Owns (bs : List Nat) (c : Contents) (w : World) : Prop where
  block : ∃ b, c.block = some b ∧ w.blocks = b :: bs
  size : c.size ≤ c.cells.length
  cells : 0 < c.cells.length

/-- What a step about memory leaves alone. -/
structure Kept (w w' : World) : Prop where
  streams : w'.streams = w.streams
  dirs : w'.dirs = w.dirs
  junk : w'.junk = w.junk
  plan : w'.plan = w.plan
  tree : w'.tree = w.tree
  cwd : w'.cwd = w.cwd
  next : w.next ≤ w'.next

theorem Kept.rfl {w : World} : Kept w w := ⟨Eq.refl _, Eq.refl _, Eq.refl _, Eq.refl _, Eq.refl _, Eq.refl _, Nat.le_refl _⟩

/-- Growing. -/
theorem growBy_spec {bs : List Nat} {c : Contents} {w : World} (h : Owns bs c w) (hf : ∀ b ∈ w.blocks, b < w.next) (n : Nat) :
    ∃ g c' w', growBy c n w = .ok (g, c', w') ∧ Owns bs c' w' ∧ (∀ b ∈ w'.blocks, b < w'.next) ∧ Kept w w' ∧ c'.size = c.size ∧ c'.cells.take c.size = c.cells.take c.size ∧
      (g = true → c.size + n ≤ c'.cells.length ∧ w'.errno = w.errno) ∧ (g = false → false ∈ w.allocs) ∧ (∀ a ∈ w'.allocs, a ∈ w.allocs) := by
  obtain ⟨b, hb, hw⟩ := h.block
  have hsz := h.size
  have hc := h.cells
  rw [growBy, show decide (c.size ≤ c.cells.length) = true by simpa using h.size, assert, if_pos rfl, ok_bind]
  by_cases hge : c.cells.length - c.size ≥ n
  · rw [if_pos hge]
    exact ⟨true, c, w, rfl, h, hf, Kept.rfl, rfl, rfl, fun _ => ⟨by omega, rfl⟩, fun hx => (by cases hx), fun _ ha => ha⟩
  · rw [if_neg hge, hb, reallocAny]
    have hg1 : c.size + n ≤ grownCapacity c n := by rw [grownCapacity]; split <;> omega
    have hg2 : c.size ≤ grownCapacity c n := by omega
    rcases realloc_cases hw with ⟨w', e, h1, h2, h3, h4, h5, h6, h7, h8, h9, h10, _⟩ | ⟨w', e, h1, h2, h3, h4, h5, h6, h7, h8, h9, h10, _, h11⟩
    · rw [e, ok_bind]
      refine ⟨true, _, w', rfl, ⟨⟨w.next, rfl, h1⟩, ?_, ?_⟩, ?_, ⟨h3, h4, h5, h6, h7, h8, by omega⟩, rfl, ?_, fun _ => ⟨?_, h9⟩, fun hx => (by cases hx), fun a ha => List.mem_of_mem_tail (h10 ▸ ha)⟩
      · dsimp only; rw [resize_length]; exact hg2
      · dsimp only; rw [resize_length]; omega
      · intro x hx
        rw [h1] at hx
        rw [h2]
        rcases List.mem_cons.1 hx with rfl | hx
        · omega
        · have := hf x (by rw [hw]; exact List.mem_cons_of_mem _ hx)
          omega
      · dsimp only; rw [resize_take h.size hg2]
      · dsimp only; rw [resize_length]; exact hg1
    · rw [e, ok_bind]
      refine ⟨false, c, w', rfl, ⟨⟨b, hb, h1⟩, h.size, h.cells⟩, ?_, ⟨h3, h4, h5, h6, h7, h8, by omega⟩, rfl, rfl, fun hx => (by cases hx), fun _ => h11, fun a ha => List.mem_of_mem_tail (h10 ▸ ha)⟩
      intro x hx
      rw [h1, ← hw] at hx
      rw [h2]
      exact hf x hx

/-- Giving contents back. -/
theorem destroy_spec {bs : List Nat} {c : Contents} {w : World} (h : Owns bs c w) : destroyContents c w = .ok { w with blocks := bs } := by
  obtain ⟨b, hb, hw⟩ := h.block
  rw [destroyContents, hb]
  dsimp only
  rw [show decide (0 < c.cells.length) = true by simpa using h.cells, assert, if_pos rfl, ok_bind, free_head hw]

/-- What reading has done when it ends. -/
structure ReadEnd (l : List Stream) (bs : List Nat) (s : Stream) (w : World) (sofar : List Byte) (r : ContentsResult) (s' : Stream) (w' : World) : Prop where
  using_ : Using l s' w'
  id : s'.id = s.id
  pending : s'.pending = s.pending
  blocks : w'.blocks = r.contents.block.toList ++ bs
  fresh : ∀ b ∈ w'.blocks, b < w'.next
  dirs : w'.dirs = w.dirs
  next : w.next ≤ w'.next
  cwd : w'.cwd = w.cwd
  plan : ∃ n, w'.plan = w.plan.drop n
  tree : Alone w → w'.tree = w.tree
  size : r.contents.block ≠ none → r.contents.size ≤ r.contents.cells.length ∧ 0 < r.contents.cells.length
  null : r.contents.block = none → r.contents.size = 0
  exact : r.ec = 0 → s'.error = false → s.isDir = false ∧ r.contents.cells.take r.contents.size = sofar ++ s.rest
  quiet : Quiet w → s.isDir = false → r.ec = 0 ∧ s'.error = s.error ∧ w'.errno = w.errno
  allocs : ∀ a ∈ w'.allocs, a ∈ w.allocs

theorem drop_of_tail {w w' w'' : World} (h : w'.plan = w.plan.tail) (h2 : ∃ n, w''.plan = w'.plan.drop n) : ∃ n, w''.plan = w.plan.drop n := by
  obtain ⟨n, hn⟩ := h2
  exact ⟨1 + n, by rw [hn, h, ← List.drop_one, List.drop_drop]⟩

theorem Quiet.tail {w w' : World} (h : Quiet w) (hp : w'.plan = w.plan.tail) (ha : ∀ a ∈ w'.allocs, a ∈ w.allocs) : Quiet w' :=
  ⟨fun e he => h.calls e (List.mem_of_mem_tail (hp ▸ he)), fun a h' => h.allocs a (ha a h')⟩

theorem Quiet.same {w w' : World} (h : Quiet w) (hp : w'.plan = w.plan) (ha : ∀ a ∈ w'.allocs, a ∈ w.allocs) : Quiet w' :=
  ⟨fun e he => h.calls e (hp ▸ he), fun a h' => h.allocs a (ha a h')⟩

theorem Alone.others {w : World} (h : Alone w) : w.event.others w.tree = w.tree := by rw [h.event]; rfl

/-- The loop that reads the rest. -/
theorem readMore_spec {l : List Stream} {bs : List Nat} : ∀ (fuel : Nat) (s : Stream) (c : Contents) (w : World), Using l s w → Owns bs c w → (∀ b ∈ w.blocks, b < w.next) →
    s.rest.length < fuel → ∃ r s' w', readMore fuel s.id c w = .ok (r, w') ∧ ReadEnd l bs s w (c.cells.take c.size) r s' w'
  | 0, _, _, _, _, _, _, hl => absurd hl (by omega)
  | fuel + 1, s, c, w, hu, ho, hf, hl => by
    obtain ⟨k, s1, w1, e1, hu1, hi1, hr1, hp1, hd1, he1, hk, hx1, hb1, hdir1, hn1, hj1, ha1, hc1, hpl1, ht1, hq1⟩ := fread_spec hu 1024
    rw [readMore, e1, ok_bind]
    dsimp only
    by_cases h0 : (s.rest.take k).length = 0
    · rw [if_pos h0]
      refine ⟨_, s1, w1, rfl, ⟨hu1, hi1, hp1, ?_, ?_, hdir1, by omega, hc1, ⟨1, by rw [hpl1, List.drop_one]⟩, fun ha => by rw [ht1, ha.others], fun _ => ⟨ho.size, ho.cells⟩, ?_, ?_, ?_, by rw [ha1]; exact fun _ h => h⟩⟩
      · obtain ⟨b, hb, hw⟩ := ho.block
        rw [hb1, hw]
        dsimp only
        rw [hb]
        rfl
      · rw [hb1, hn1]; exact hf
      · intro hx
        obtain ⟨b, hb, hw⟩ := ho.block
        dsimp only at hx
        rw [hb] at hx
        cases hx
      · intro _ hx
        obtain ⟨g1, g2⟩ := hx1 hx
        have : s.rest = [] := List.length_eq_zero_iff.1 (by omega)
        exact ⟨g1, by rw [this, List.append_nil]⟩
      · intro hq hnd
        obtain ⟨q1, q2, q3⟩ := hq.event
        exact ⟨rfl, hq1 q2 q3 hnd⟩
    · rw [if_neg h0]
      have ho1 : Owns bs c w1 := ⟨by rw [hb1]; exact ho.block, ho.size, ho.cells⟩
      obtain ⟨g, c2, w2, e2, ho2, hf2, hk2, hs2, hc2, hg2, hng2, hal2⟩ := growBy_spec ho1 (by rw [hb1, hn1]; exact hf) (s.rest.take k).length
      rw [e2, ok_bind]
      dsimp only
      have hu2 : Using l s1 w2 := ⟨by rw [hk2.streams]; exact hu1.streams, hu1.other⟩
      cases g with
      | false =>
        rw [if_pos (by rfl), destroy_spec ho2, ok_bind]
        refine ⟨_, s1, _, rfl, ⟨⟨hu2.streams, hu2.other⟩, hi1, hp1, rfl, ?_, ?_, ?_, ?_, ?_, ?_, fun hx => absurd rfl hx, fun _ => rfl, fun hx => ?_, ?_, ?_⟩⟩
        · intro x hx
          obtain ⟨b, _, hw⟩ := ho2.block
          exact hf2 x (by rw [hw]; exact List.mem_cons_of_mem _ hx)
        · exact hk2.dirs.trans hdir1
        · have := hk2.next; show w.next ≤ w2.next; omega
        · exact hk2.cwd.trans hc1
        · exact ⟨1, by show w2.plan = _; rw [hk2.plan, hpl1, List.drop_one]⟩
        · intro ha
          show w2.tree = w.tree
          rw [hk2.tree, ht1, ha.others]
        · exact absurd hx (by decide)
        · intro hq
          have := hq.allocs false (by rw [← ha1]; exact hng2 rfl)
          cases this
        · rw [← ha1]; exact hal2
      | true =>
        rw [if_neg (by simp)]
        obtain ⟨hroom, herr⟩ := hg2 rfl
        obtain ⟨cells, e3, hl3, ht3⟩ := copyAt_ok (cells := c2.cells) (src := s.rest.take k) (pos := c2.size) (by rw [hs2]; exact hroom)
        rw [e3, ok_bind]
        have ho3 : Owns bs { c2 with cells := cells, size := c2.size + (s.rest.take k).length } w2 := ⟨ho2.block, by dsimp only; rw [hl3, hs2]; exact hroom, by dsimp only; rw [hl3]; exact ho2.cells⟩
        have hlen : s1.rest.length < fuel := by
          rw [hr1, List.length_drop]
          rw [List.length_take] at h0
          omega
        obtain ⟨r, s', w', e4, H⟩ := readMore_spec fuel s1 _ w2 hu2 ho3 hf2 hlen
        rw [← hi1]
        refine ⟨r, s', w', e4, ⟨H.using_, H.id.trans hi1, H.pending.trans hp1, H.blocks, H.fresh, H.dirs.trans (hk2.dirs.trans hdir1), ?_, H.cwd.trans (hk2.cwd.trans hc1), ?_, ?_, H.size, H.null, ?_, ?_, fun a ha => by rw [← ha1]; exact hal2 a (H.allocs a ha)⟩⟩
        · have := hk2.next; have := H.next; omega
        · obtain ⟨n, hn⟩ := H.plan
          exact ⟨1 + n, by rw [hn, hk2.plan, hpl1, ← List.drop_one, List.drop_drop]⟩
        · intro ha
          rw [H.tree ((ha.tail hpl1).same hk2.plan), hk2.tree, ht1, ha.others]
        · intro hr hx
          obtain ⟨g1, g2⟩ := H.exact hr hx
          refine ⟨by rw [← hd1]; exact g1, ?_⟩
          rw [g2]
          dsimp only
          rw [ht3, hs2, hc2, hr1, List.append_assoc, List.take_append_drop]
        · intro hq hnd
          obtain ⟨q1, q2, q3⟩ := hq.event
          obtain ⟨q4, q5⟩ := hq1 q2 q3 hnd
          obtain ⟨q6, q7, q8⟩ := H.quiet ((hq.tail hpl1 (by rw [ha1]; exact fun _ h => h)).same hk2.plan hal2) (by rw [hd1]; exact hnd)
          exact ⟨q6, q7.trans q4, q8.trans (herr.trans q5)⟩

/-- Reading a stream that has just been opened. -/
theorem readBody_spec {l : List Stream} {s : Stream} {w : World} (hu : Using l s w) (hf : ∀ b ∈ w.blocks, b < w.next) :
    ∃ r s' w', readBody (s.rest.length + 1) s.id w = .ok (r, w') ∧ ReadEnd l w.blocks s w [] r s' w' := by
  obtain ⟨k, s1, w1, e1, hu1, hi1, hr1, hp1, hd1, he1, hk, hx1, hb1, hdir1, hn1, hj1, ha1, hc1, hpl1, ht1, hq1⟩ := fread_spec hu 1024
  rw [readBody, e1, ok_bind]
  dsimp only
  by_cases h0 : (s.rest.take k).length = 0
  · rw [if_pos h0]
    refine ⟨_, s1, w1, rfl, ⟨hu1, hi1, hp1, hb1, by rw [hb1, hn1]; exact hf, hdir1, by omega, hc1, ⟨1, by rw [hpl1, List.drop_one]⟩, fun ha => by rw [ht1, ha.others], fun hx => absurd rfl hx, fun _ => rfl, ?_, ?_, by rw [ha1]; exact fun _ h => h⟩⟩
    · intro _ hx
      obtain ⟨g1, g2⟩ := hx1 hx
      have : s.rest = [] := List.length_eq_zero_iff.1 (by omega)
      exact ⟨g1, by rw [this]; rfl⟩
    · intro hq hnd
      obtain ⟨q1, q2, q3⟩ := hq.event
      exact ⟨rfl, hq1 q2 q3 hnd⟩
  · rw [if_neg h0]
    rcases malloc_cases w1 with ⟨w2, e2, m1, m2, m3, m4, m5, m6, m7, m8, m9, m10, _⟩ | ⟨w2, e2, m1, m2, m3, m4, m5, m6, m7, m8, m9, m10, _, m11⟩
    · rw [e2]
      dsimp only
      have hcap : 0 + (s.rest.take k).length ≤ (List.replicate (if (s.rest.take k).length < 1024 then (s.rest.take k).length else 2048) w2.junk).length := by
        rw [List.length_replicate]
        split
        · omega
        · rw [List.length_take]; omega
      obtain ⟨cells, e3, hl3, ht3⟩ := copyAt_ok hcap
      rw [e3, ok_bind]
      have hu2 : Using l s1 w2 := ⟨by rw [m3]; exact hu1.streams, hu1.other⟩
      rw [Nat.zero_add] at hcap
      have ho : Owns w.blocks ⟨some w1.next, cells, (s.rest.take k).length⟩ w2 := ⟨⟨w1.next, rfl, by rw [m1, hb1]⟩, by dsimp only; rw [hl3]; exact hcap, by dsimp only; rw [hl3]; omega⟩
      have hf2 : ∀ b ∈ w2.blocks, b < w2.next := by
        intro x hx
        rw [m1, hb1] at hx
        rw [m2, hn1]
        rcases List.mem_cons.1 hx with rfl | hx
        · omega
        · have := hf x hx; omega
      obtain ⟨r, s', w', e4, H⟩ := readMore_spec (s.rest.length + 1) s1 _ w2 hu2 ho hf2 (by rw [hr1, List.length_drop]; omega)
      rw [← hi1]
      refine ⟨r, s', w', e4, ⟨H.using_, H.id.trans hi1, H.pending.trans hp1, H.blocks, H.fresh, H.dirs.trans (m4.trans hdir1), ?_, H.cwd.trans (m8.trans hc1), ?_, ?_, H.size, H.null, ?_, ?_, fun a ha => by rw [← ha1]; exact List.mem_of_mem_tail (m10 ▸ H.allocs a ha)⟩⟩
      · have := H.next; omega
      · obtain ⟨n, hn⟩ := H.plan
        exact ⟨1 + n, by rw [hn, m6, hpl1, ← List.drop_one, List.drop_drop]⟩
      · intro ha
        rw [H.tree ((ha.tail hpl1).same m6), m7, ht1, ha.others]
      · intro hr hx
        obtain ⟨g1, g2⟩ := H.exact hr hx
        refine ⟨by rw [← hd1]; exact g1, ?_⟩
        rw [g2]
        dsimp only
        rw [Nat.zero_add] at ht3
        rw [ht3, hr1, List.take_zero, List.append_assoc, List.take_append_drop]
      · intro hq hnd
        obtain ⟨q1, q2, q3⟩ := hq.event
        obtain ⟨q4, q5⟩ := hq1 q2 q3 hnd
        obtain ⟨q6, q7, q8⟩ := H.quiet ((hq.tail hpl1 (by rw [ha1]; exact fun _ h => h)).same m6 (by rw [m10]; exact fun _ h => List.mem_of_mem_tail h)) (by rw [hd1]; exact hnd)
        exact ⟨q6, q7.trans q4, q8.trans (m9.trans q5)⟩
    · rw [e2]
      refine ⟨_, s1, w2, rfl, ⟨⟨by rw [m3]; exact hu1.streams, hu1.other⟩, hi1, hp1, by rw [m1, hb1]; rfl, by rw [m1, m2, hb1, hn1]; exact hf, m4.trans hdir1, by omega, m8.trans hc1,
        ⟨1, by rw [m6, hpl1, List.drop_one]⟩, fun ha => by rw [m7, ht1, ha.others], fun hx => absurd rfl hx, fun _ => rfl, fun hx => ?_, fun hq => ?_, fun a ha => by rw [← ha1]; exact List.mem_of_mem_tail (m10 ▸ ha)⟩⟩
      · exact absurd (show ENOMEM = 0 from hx) (by decide)
      · have := hq.allocs false (by rw [← ha1]; exact m11)
        cases this

end Tm.File
