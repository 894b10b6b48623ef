import Verif.Pack.BatchLemmas

/-! # Properties of packing with the guillotine functions -/

namespace Tm.Pack

open Tm

theorem reached_inv {W H : Int} {more : Nat} {p : Pack} (h : Reached W H more p) :
    Inv W H p ∧ Room more p ∧ p.width = W ∧ p.height = H := by
  obtain ⟨hW, hH, hA, dyn, fc, uc, p0, ops, hmem, hpos, hc, hr⟩ := h
  obtain ⟨q, e1, e2, e3, e4, e5, e6, e7, e8, e9⟩ := create_ok (dyn := dyn) (fc := fc) (uc := uc) ⟨hW, hH, hA⟩ (by
    rcases hmem with h | h
    · exact .inl h
    · exact .inr h.2.1)
  rw [hc] at e1
  injection e1 with e1
  subst e1
  have hroom : Room ((ops.map Op.size).sum + more) p0 := by
    unfold Room
    rw [e5, e7, e3]
    rcases hmem with h | h
    · exact .inl h
    · cases hd : dyn with
      | true => exact .inl rfl
      | false =>
        right
        rw [e6 hd, List.length_nil]
        omega
  obtain ⟨p', f1, f2, f3, f4⟩ := run_ok ops p0 e2 hpos (.inr ⟨e8, e9⟩) more hroom
  rw [hr] at f1
  injection f1 with f1
  subst f1
  refine ⟨f2, f3, ?_⟩
  clear f2 f3 f4 hroom
  have : ∀ (ops : List Op) (p0 p : Pack) (n : Nat), Inv W H p0 → (∀ op ∈ ops, op.Positive) → p0.width = W ∧ p0.height = H →
      Room ((ops.map Op.size).sum + n) p0 → run p0 ops = .ok p → p.width = W ∧ p.height = H := by
    intro ops
    induction ops with
    | nil =>
      intro p0 p n _ _ h _ hr
      injection hr with hr
      subst hr
      exact h
    | cons op ops ih =>
      intro p0 p n hi hpos h hroom hr
      rw [List.map_cons, List.sum_cons, Nat.add_assoc] at hroom
      obtain ⟨p1, g1, g2, g3, g4, g5⟩ := step_ok hi op (hpos op (by simp)) _ hroom (.inr h)
      unfold run at hr
      rw [g1, ok_bind] at hr
      exact ih p1 p n g2 (fun o ho => hpos o (by simp [ho])) ⟨g5.1.trans h.1, g5.2.trans h.2⟩ g3 hr
  refine this ops p0 p more e2 hpos ⟨e8, e9⟩ ?_ hr
  unfold Room
  rw [e5, e7, e3]
  rcases hmem with h | h
  · exact .inl h
  · cases hd : dyn with
    | true => exact .inl rfl
    | false =>
      right
      rw [e6 hd, List.length_nil]
      omega

/-! ### The specification is about what it says: small examples -/

/-- An example history: insert, merge, a batch of two, with static memory. -/
def exampleOps : List Op :=
  [.insert 4 3 .shortSide .minArea true, .merge, .batch [⟨2, 5, 7⟩, ⟨6, 1, 8⟩] .area .longerAxis true true, .insert 3 3 .longSide .maxArea false]

example : ∃ p0 p, create false 10 8 8 4 = .ok p0 ∧ run p0 exampleOps = .ok p ∧ p.used.live.length = 4 :=
  ⟨_, _, rfl, rfl, by decide⟩

theorem exampleReached : ∃ p, Reached 10 8 0 p ∧ p.used.live.length = 4 := by
  refine ⟨_, ⟨by decide, by decide, by decide, false, 8, 4, _, exampleOps, .inr (by decide), ?_, rfl, rfl⟩, by decide⟩
  intro op hop
  simp only [exampleOps, List.mem_cons, List.not_mem_nil, or_false] at hop
  rcases hop with rfl | rfl | rfl | rfl
  · exact ⟨by decide, by decide⟩
  · trivial
  · simp [Op.Positive]
  · exact ⟨by decide, by decide⟩

/-! ### C79 Placed rectangles lie in the bin and do not overlap -/

/-- After any history the placed rectangles lie in the bin, have positive sizes and share no cell. -/
theorem C79_placed_inside_and_apart {W H : Int} {p : Pack} (h : Reached W H 0 p) :
    (∀ r ∈ p.used.live, Inside W H r ∧ 0 < r.width ∧ 0 < r.height) ∧ p.used.live.Pairwise Apart := by
  have hi := (reached_inv h).1
  refine ⟨fun r hr => ⟨hi.tiles.inside (.inr hr), (hi.tiles.posU r hr).1, (hi.tiles.posU r hr).2⟩, ?_⟩
  have hcov : ∀ x y, covering p.used.live x y ≤ 1 := by
    intro x y
    have h1 := hi.tiles.tile (cov x y) (meas_cov x y)
    have h2 := tot_nonneg (meas_cov x y) hi.tiles.posF
    rw [tot_cov] at h1 h2
    rw [tot_cov] at h1
    have h3 : cov x y ⟨0, 0, W, H⟩ ≤ 1 := by unfold cov; split <;> omega
    omega
  have key : ∀ l : List Rect, (∀ x y, covering l x y ≤ 1) → l.Pairwise Apart := by
    intro l
    induction l with
    | nil => intro _; exact .nil
    | cons r l ih =>
      intro hl
      refine .cons (fun s hs x y hc => ?_) (ih fun x y => ?_)
      · have h1 := hl x y
        unfold covering at h1
        rw [List.countP_cons, if_pos (by simpa using hc.1)] at h1
        have h2 : 0 < l.countP fun r => decide (Covers r x y) := List.countP_pos_iff.mpr ⟨s, hs, by simpa using hc.2⟩
        omega
      · have h1 := hl x y
        unfold covering at h1 ⊢
        rw [List.countP_cons] at h1
        omega
  exact key _ hcov

example : ∃ p, Reached 10 8 0 p ∧ p.used.live.length = 4 := exampleReached

/-- An insertion ends without error. If the rectangle was placed, it is the new last one, has the size that was asked for, and is turned only
if that was allowed. If it was not placed, nothing has changed. -/
theorem C79_insert {W H : Int} {p : Pack} (h : Reached W H 1 p) {w ht : Int} (hw : 1 ≤ w) (hh : 1 ≤ ht) (fit : Fit) (s : Split) (flip : Bool) :
    ∃ p' res, insertChoice p w ht fit s flip = .ok (p', res) ∧
      (if res.placed then p'.used.live = p.used.live ++ [res.rect] ∧ Sized flip w ht res else p' = p) := by
  obtain ⟨hi, hroom, _⟩ := reached_inv h
  obtain ⟨p', res, e1, _, e3⟩ := insertChoice_ok hi hw hh fit s flip hroom
  refine ⟨p', res, e1, ?_⟩
  rcases e3 with ⟨h1, h2, _⟩ | ⟨h1, _⟩
  · rw [h2]
    exact h1
  · rw [h1.placed]
    exact ⟨h1.used, h1.size⟩

/-- The empty pack of 10×10 is such a pack, and a 3×12 rectangle that may be turned has no place, a 3×10 one has. -/
theorem exampleEmpty : ∃ p, Reached 10 10 1 p ∧ p.free.live = [⟨0, 0, 10, 10⟩] :=
  ⟨_, ⟨by decide, by decide, by decide, false, 2, 1, _, [], .inr (by decide), nofun, rfl, rfl⟩, rfl⟩

example : ∃ p, Reached 10 10 1 p := exampleEmpty.imp fun _ h => h.1

/-! ### C80 Nothing is lost -/

/-- After any history every cell of the bin lies in exactly one of the free and the placed rectangles, and no cell outside in any of them. -/
theorem C80_tiling {W H : Int} {p : Pack} (h : Reached W H 0 p) (x y : Int) :
    covering (p.free.live ++ p.used.live) x y = if 0 ≤ x ∧ x < W ∧ 0 ≤ y ∧ y < H then 1 else 0 := by
  have hi := (reached_inv h).1
  have h1 := hi.tiles.tile (cov x y) (meas_cov x y)
  rw [tot_cov, tot_cov] at h1
  have h2 : covering (p.free.live ++ p.used.live) x y = covering p.free.live x y + covering p.used.live x y := List.countP_append ..
  rw [h2]
  unfold cov Covers at h1
  dsimp only at h1
  simp only [Int.zero_add] at h1
  split
  · rename_i hc
    rw [if_pos (by omega)] at h1
    omega
  · rename_i hc
    rw [if_neg (by omega)] at h1
    omega

/-- After any history the used area is the sum of the areas of the placed rectangles, and with those of the free rectangles it is the area of
the bin. -/
theorem C80_area {W H : Int} {p : Pack} (h : Reached W H 0 p) :
    p.usedArea = areas p.used.live ∧ areas p.used.live + areas p.free.live = W * H := by
  have hi := (reached_inv h).1
  refine ⟨hi.area, ?_⟩
  have h1 := hi.tiles.tile area meas_area
  have h2 : area ⟨0, 0, W, H⟩ = W * H := rfl
  have h3 : areas p.used.live = tot area p.used.live := rfl
  have h4 : areas p.free.live = tot area p.free.live := rfl
  omega

example : ∃ p, Reached 10 8 0 p ∧ p.used.live.length = 4 := exampleReached

/-! ### C81 A place is found if there is one, and it is the best -/

/-- The rectangle is placed if and only if there is room in one of the free rectangles. -/
theorem C81_finds {W H : Int} {p : Pack} (h : Reached W H 1 p) {w ht : Int} (hw : 1 ≤ w) (hh : 1 ≤ ht) (fit : Fit) (s : Split) (flip : Bool) :
    ∃ p' res, insertChoice p w ht fit s flip = .ok (p', res) ∧ (res.placed = true ↔ ∃ r ∈ p.free.live, RoomIn flip w ht r) := by
  obtain ⟨hi, hroom, _⟩ := reached_inv h
  obtain ⟨p', res, e1, _, e3⟩ := insertChoice_ok hi hw hh fit s flip hroom
  refine ⟨p', res, e1, ?_⟩
  rcases e3 with ⟨h1, h2, h3⟩ | ⟨h1, c, f, h2, h3, h4, h5, _⟩
  · rw [h2]
    refine ⟨fun h => absurd h (by decide), fun ⟨r, hr, hroom⟩ => absurd hroom (h3 r hr)⟩
  · refine ⟨fun _ => ⟨f, mem_of_getElem? h3, ?_⟩, fun _ => h1.placed⟩
    unfold Suits at h4
    split at h4
    · exact .inr h4
    · exact .inl h4

/-- A rectangle that is placed is put into the free rectangle that the rule prefers: one that it fills completely, or else one where the least
is left over. -/
theorem C81_best {W H : Int} {p : Pack} (h : Reached W H 1 p) {w ht : Int} (hw : 1 ≤ w) (hh : 1 ≤ ht) (fit : Fit) (s : Split) (flip : Bool) {p' : Pack}
    {res : Placed} (hins : insertChoice p w ht fit s flip = .ok (p', res)) (hpl : res.placed = true) (u : Nat) :
    BestPlace fit flip p.free.live [⟨w, ht, u⟩] ⟨w, ht, u⟩ res := by
  obtain ⟨hi, hroom, _⟩ := reached_inv h
  obtain ⟨p'', res', e1, _, e3⟩ := insertChoice_ok hi hw hh fit s flip hroom
  rw [hins] at e1
  injection e1 with e1
  injection e1 with e1 e2
  subst e1 e2
  rcases e3 with ⟨_, h2, _⟩ | ⟨h1, c, f, h2, h3, h4, h5, h6, h7, _⟩
  · rw [h2] at hpl
    cases hpl
  · refine bestPlace_of_found (d := ⟨w, ht, u⟩) h2 ?_ h3 h4 h1.size h5 h6 h7 ?_
    · rcases h2.cases with ⟨h8, h9⟩ | h8
      · exfalso
        refine h9 f (mem_of_getElem? h3) ?_
        unfold Suits at h4
        split at h4
        · exact .inr h4
        · exact .inl h4
      · exact h8.1
    · intro d' hd'
      rw [List.mem_singleton] at hd'
      subst hd'
      exact ⟨c, h2, Int.le_refl _⟩

/-- In the empty bin a 3×12 rectangle has no place and a 12×3 one neither, a 3×10 one has. -/
example : ∃ p, Reached 10 10 1 p ∧ (∃ p' res, insertChoice p 3 10 .area .minArea true = .ok (p', res) ∧ res.placed = true) ∧
    ∃ p' res, insertChoice p 3 12 .area .minArea true = .ok (p', res) ∧ res.placed = false :=
  ⟨_, ⟨by decide, by decide, by decide, false, 2, 1, _, [], .inr (by decide), nofun, rfl, rfl⟩, ⟨_, _, rfl, rfl⟩, _, _, rfl, rfl⟩

/-! ### C82 The recommended memory suffices -/

/-- With memory for `2 * n` free rectangles, as `guillotineFreeRectsSize` says, and `n` placed ones, no history of at most `n` insertions runs
out of memory, overflows an integer or runs into an assertion. -/
theorem C82_static_memory {W H : Int} (hW : 1 ≤ W) (hH : 1 ≤ H) (hA : W * H ≤ 2147483647) {n : Nat} (hn : 1 ≤ n) (ops : List Op)
    (hpos : ∀ op ∈ ops, op.Positive) (hle : (ops.map Op.size).sum ≤ n) :
    ∃ p0 p, create false W H (2 * n) n = .ok p0 ∧ run p0 ops = .ok p ∧ p.free.live.length ≤ 2 * n ∧ p.used.live.length ≤ n := by
  obtain ⟨p0, e1, e2, e3, e4, e5, e6, e7, e8, e9⟩ := create_ok (dyn := false) (fc := 2 * n) (uc := n) ⟨hW, hH, hA⟩ (.inr (by omega))
  have hroom : Room ((ops.map Op.size).sum + 0) p0 := by
    right
    rw [e6 rfl, e7, e3, List.length_nil]
    omega
  obtain ⟨p, f1, f2, f3, f4⟩ := run_ok ops p0 e2 hpos (.inr ⟨e8, e9⟩) 0 hroom
  have hr : ∀ (ops : List Op) (p0 p : Pack) (k : Nat), Inv W H p0 → (∀ op ∈ ops, op.Positive) → p0.width = W ∧ p0.height = H →
      Room ((ops.map Op.size).sum + k) p0 → p0.dyn = false → p0.free.cap = 2 * n → p0.used.cap = n → run p0 ops = .ok p →
      p.free.cap = 2 * n ∧ p.used.cap = n := by
    intro ops
    induction ops with
    | nil =>
      intro p0 p k _ _ _ _ _ h1 h2 hr
      injection hr with hr
      subst hr
      exact ⟨h1, h2⟩
    | cons op ops ih =>
      intro p0 p k hi hpos hs hroom hd h1 h2 hr
      rw [List.map_cons, List.sum_cons, Nat.add_assoc] at hroom
      obtain ⟨p1, g1, g2, g3, g4, g5, g6⟩ := step_ok' hi op (hpos op (by simp)) _ hroom (.inr hs)
      unfold run at hr
      rw [g1, ok_bind] at hr
      refine ih p1 p k g2 (fun o ho => hpos o (by simp [ho])) ⟨g5.1.trans hs.1, g5.2.trans hs.2⟩ g3 (g4.trans hd) ?_ ?_ hr
      · rw [(g6 hd).1]; exact h1
      · rw [(g6 hd).2]; exact h2
  have hcap := hr ops p0 p 0 e2 hpos ⟨e8, e9⟩ hroom e5 (e6 rfl) e7 f1
  refine ⟨p0, p, e1, f1, ?_, ?_⟩
  · rw [← hcap.1]; exact f2.okF
  · have := f2.okU
    unfold Arr.Ok at this
    rw [hcap.2] at this
    exact this

/-- With memory that grows no history fails. -/
theorem C82_dynamic_memory {W H : Int} (hW : 1 ≤ W) (hH : 1 ≤ H) (hA : W * H ≤ 2147483647) (fc uc : Nat) (ops : List Op)
    (hpos : ∀ op ∈ ops, op.Positive) : ∃ p0 p, create true W H fc uc = .ok p0 ∧ run p0 ops = .ok p := by
  obtain ⟨p0, e1, e2, e3, e4, e5, e6, e7, e8, e9⟩ := create_ok (dyn := true) (fc := fc) (uc := uc) ⟨hW, hH, hA⟩ (.inl rfl)
  obtain ⟨p, f1, _⟩ := run_ok ops p0 e2 hpos (.inr ⟨e8, e9⟩) 0 (.inl e5)
  exact ⟨p0, p, e1, f1⟩

example : ∃ p0 p, create false 10 8 8 4 = .ok p0 ∧ run p0 exampleOps = .ok p := ⟨_, _, rfl, rfl⟩

/-! ### C83 A batch is a greedy sequence of insertions -/

/-- `guillotineInsertBatch` does what inserting one rectangle after the other does, always the one that has the best place, until there is room
for none of the remaining. The rectangles are only reordered: those without a place come first, and the others follow in the reverse of the
order of the results, each of which has the user data and the size of its rectangle. -/
theorem C83_batch {W H : Int} {p : Pack} (dims : List Dim) (h : Reached W H dims.length p) (hpos : ∀ d ∈ dims, 1 ≤ d.width ∧ 1 ≤ d.height) (fit : Fit)
    (s : Split) (flip m : Bool) :
    ∃ p' rs left done, insertBatch fit s flip m dims.length p dims = .ok (p', left ++ done.reverse, rs) ∧
      (left ++ done.reverse).Perm dims ∧ Greedy fit s flip m p dims p' rs left ∧
      List.Forall₂ (fun x d => x.1.placed = true ∧ x.2 = d.user ∧ Sized flip d.width d.height x.1) rs done ∧
      p'.used.live = p.used.live ++ rs.map (·.1.rect) ∧ ∀ d ∈ left, ∀ r ∈ p'.free.live, ¬ RoomIn flip d.width d.height r := by
  obtain ⟨hi, hroom, _⟩ := reached_inv h
  obtain ⟨p', ds', rs, k1, k2, k3, k4, k5, k6, k7, k8, k8', k9, k10⟩ := insertBatch_ok fit s flip m dims.length p dims hi (Nat.le_refl _) hpos hroom
  have ht : ds'.take dims.length = ds' := by rw [← k3.length_eq, List.take_length]
  rw [ht] at k9
  rw [List.take_length] at k10
  have hsplit : ds'.take (dims.length - rs.length) ++ (ds'.drop (dims.length - rs.length)).reverse.reverse = ds' := by
    rw [List.reverse_reverse, List.take_append_drop]
  refine ⟨p', rs, ds'.take (dims.length - rs.length), (ds'.drop (dims.length - rs.length)).reverse, ?_, ?_, k10, k9, k6, ?_⟩
  · rw [hsplit]; exact k1
  · rw [hsplit]; exact k3
  · have : ∀ {p ds p' rs left}, Greedy fit s flip m p ds p' rs left → ∀ d ∈ left, ∀ r ∈ p'.free.live, ¬ RoomIn flip d.width d.height r := by
      intro p ds p' rs left hg
      induction hg with
      | stop h => exact h
      | step _ _ _ _ _ _ ih => exact ih
    exact this k10

/-- A batch of three of which two have a place. -/
example : ∃ p, Reached 10 8 3 p ∧ ∃ p' ds rs, insertBatch .area .minArea true false 3 p [⟨8, 8, 1⟩, ⟨9, 9, 2⟩, ⟨2, 3, 3⟩] = .ok (p', ds, rs) ∧
    rs.map (·.2) = [1, 3] ∧ ds.map (·.user) = [2, 3, 1] :=
  ⟨_, ⟨by decide, by decide, by decide, false, 6, 3, _, [], .inr (by decide), nofun, rfl, rfl⟩, _, _, _, rfl, by decide, by decide⟩

/-! ### C84 A pack that was cleared is as good as new; one that was reset is not quite -/

/-- After clearing, nothing is placed, the whole bin is free, and the memory is the same. -/
theorem C84_clear {W H : Int} {more : Nat} {p : Pack} (h : Reached W H more p) :
    (clear p).used.live = [] ∧ (clear p).free.live = [⟨0, 0, W, H⟩] ∧ (clear p).usedArea = 0 ∧ (clear p).free.cap = p.free.cap ∧
      (clear p).used.cap = p.used.cap := by
  obtain ⟨hi, _, h1, h2⟩ := reached_inv h
  unfold clear
  rw [h1, h2]
  obtain ⟨e1, e2, e3, e4, e5, e6⟩ := reset_ok (p := p) hi.cap hi.size
  exact ⟨e2, e3, rfl, e5, e6⟩

/-- After a reset to any size every history without a clear leaves rectangles that tile the bin of the new size. -/
theorem C84_reset_partial {W H : Int} {more : Nat} {p : Pack} (h : Reached W H more p) (hd : p.dyn = true) {W' H' : Int} (hW : 1 ≤ W') (hH : 1 ≤ H')
    (hA : W' * H' ≤ 2147483647) (ops : List Op) (hpos : ∀ op ∈ ops, op.Positive ∧ op ≠ .clear) :
    ∃ p', run (reset p W' H') ops = .ok p' ∧ (∀ x y, covering (p'.free.live ++ p'.used.live) x y = if 0 ≤ x ∧ x < W' ∧ 0 ≤ y ∧ y < H' then 1 else 0) ∧
      p'.usedArea = areas p'.used.live := by
  obtain ⟨hi, _⟩ := reached_inv h
  obtain ⟨e1, e2, e3, e4, e5, e6⟩ := reset_ok (p := p) hi.cap (W := W') (H := H') ⟨hW, hH, hA⟩
  obtain ⟨p', f1, f2, _⟩ := run_ok ops _ e1 (fun o ho => (hpos o ho).1) (.inl fun o ho => (hpos o ho).2) 0 (.inl (e4.trans hd))
  refine ⟨p', f1, fun x y => ?_, f2.area⟩
  have h1 := f2.tiles.tile (cov x y) (meas_cov x y)
  rw [tot_cov, tot_cov] at h1
  have h2 : covering (p'.free.live ++ p'.used.live) x y = covering p'.free.live x y + covering p'.used.live x y := List.countP_append ..
  rw [h2]
  unfold cov Covers at h1
  dsimp only at h1
  simp only [Int.zero_add] at h1
  split
  · rename_i hc
    rw [if_pos (by omega)] at h1
    omega
  · rename_i hc
    rw [if_neg (by omega)] at h1
    omega

/-- But a reset does not note the size: a 10×10 pack that is reset to 5×5 and then cleared takes a 10×10 rectangle again, so that the placed
rectangle does not lie in the bin. -/
theorem C84_not_noted_by_reset : ∃ p, Reached 10 10 1 p ∧ ∃ p' res, insertChoice (clear (reset p 5 5)) 10 10 .area .minArea false = .ok (p', res) ∧
    res.placed = true ∧ ¬ Inside 5 5 res.rect :=
  ⟨_, ⟨by decide, by decide, by decide, false, 2, 1, _, [], .inr (by decide), nofun, rfl, rfl⟩, _, _, rfl, rfl, by decide⟩

/-! ### C85 Areas must be representable -/

/-- In a bin of 65536×65536, whose area is not representable, looking for a place by area is undefined. -/
theorem C85_not_any_size : ∃ p, create true 65536 65536 4 4 = .ok p ∧ insertChoice p 2 2 .area .minArea false = .error .overflow :=
  ⟨_, rfl, rfl⟩

/-- As long as the area of the bin is representable no use of the pack overflows or fails in any other way, with memory that grows. -/
theorem C85_no_fault_partial {W H : Int} (hW : 1 ≤ W) (hH : 1 ≤ H) (hA : W * H ≤ 2147483647) (fc uc : Nat) (ops : List Op)
    (hpos : ∀ op ∈ ops, op.Positive) : ∃ p0 p, create true W H fc uc = .ok p0 ∧ run p0 ops = .ok p :=
  C82_dynamic_memory hW hH hA fc uc ops hpos

example : (1 : Int) ≤ 46340 ∧ (46340 : Int) * 46340 ≤ 2147483647 := by decide

/-! ### C93 What is left of a free rectangle -/

theorem rule_of_split {s : Split} {f r : Rect} {hz : Bool} (hf : Small f) (hr : Pos r) (h4 : r.width ≤ f.width) (h5 : r.height ≤ f.height)
    (h : splitHorizontal s f r (f.width - r.width) (f.height - r.height) = .ok hz) : Rule s f r hz := by
  have ⟨p, a, b, c⟩ := hf
  obtain ⟨q1, q2⟩ := hr
  have e1 : 0 ≤ r.width * (f.height - r.height) := Int.mul_nonneg (by omega) (by omega)
  have e2 : r.width * (f.height - r.height) ≤ f.width * f.height := Int.mul_le_mul h4 (by omega) (by omega) (by omega)
  have e3 : 0 ≤ (f.width - r.width) * r.height := Int.mul_nonneg (by omega) (by omega)
  have e4 : (f.width - r.width) * r.height ≤ f.width * f.height := Int.mul_le_mul (by omega) h5 (by omega) (by omega)
  have e5 : 0 ≤ (f.width - r.width) * (f.height - r.height) := Int.mul_nonneg (by omega) (by omega)
  have e6 : f.width * (f.height - r.height) = r.width * (f.height - r.height) + (f.width - r.width) * (f.height - r.height) := by ring
  have e7 : (f.width - r.width) * f.height = (f.width - r.width) * r.height + (f.width - r.width) * (f.height - r.height) := by ring
  unfold splitHorizontal at h
  unfold Rule
  cases s with
  | shorterLeftover =>
    injection h with h
    subst h
    simp
  | longerLeftover =>
    injection h with h
    subst h
    simp
  | minArea =>
    dsimp only at h ⊢
    rw [i32_ok (by omega) (by omega), ok_bind, i32_ok (by omega) (by omega), ok_bind] at h
    injection h with h
    unfold smaller area below beside
    cases hz with
    | true =>
      have h' := of_decide_eq_true h
      simp only [Bool.not_true, Bool.false_eq_true, if_false, if_true]
      omega
    | false =>
      have h' := of_decide_eq_false h
      simp only [Bool.not_false, Bool.false_eq_true, if_false, if_true]
      omega
  | maxArea =>
    dsimp only at h ⊢
    rw [i32_ok (by omega) (by omega), ok_bind, i32_ok (by omega) (by omega), ok_bind] at h
    injection h with h
    unfold smaller area below beside
    cases hz with
    | true =>
      have h' := of_decide_eq_true h
      simp only [Bool.not_true, Bool.false_eq_true, if_false, if_true]
      omega
    | false =>
      have h' := of_decide_eq_false h
      simp only [Bool.not_false, Bool.false_eq_true, if_false, if_true]
      omega
  | shorterAxis =>
    injection h with h
    subst h
    simp
  | longerAxis =>
    injection h with h
    subst h
    simp

/-- An insertion that places a rectangle takes one free rectangle away and adds what is left below and beside the placed one, as far as it is
not empty, cut in the direction that the rule demands. All other free rectangles stay. -/
theorem C93_split {W H : Int} {p : Pack} (h : Reached W H 1 p) {w ht : Int} (hw : 1 ≤ w) (hh : 1 ≤ ht) (fit : Fit) (s : Split) (flip : Bool) {p' : Pack}
    {res : Placed} (hins : insertChoice p w ht fit s flip = .ok (p', res)) (hpl : res.placed = true) :
    ∃ f rest hz, p.free.live.Perm (f :: rest) ∧ res.rect.left = f.left ∧ res.rect.top = f.top ∧ Rule s f res.rect hz ∧
      p'.free.live.Perm (rest ++ [below hz f res.rect, beside hz f res.rect].filter fun r => 0 < r.width ∧ 0 < r.height) := by
  obtain ⟨hi, hroom, _⟩ := reached_inv h
  obtain ⟨p'', res', e1, _, e3⟩ := insertChoice_ok hi hw hh fit s flip hroom
  rw [hins] at e1
  injection e1 with e1
  injection e1 with e1 e2
  subst e1 e2
  rcases e3 with ⟨_, h2, _⟩ | ⟨h1, c, f, h2, h3, h4, h5, h6, h7, ⟨h8, h8'⟩, hz, rest, h9, h10, h11⟩
  · rw [h2] at hpl
    cases hpl
  · have hpos : Pos res.rect := by
      have := h1.size
      unfold Sized at this
      split at this
      · exact ⟨by omega, by omega⟩
      · exact ⟨by omega, by omega⟩
    refine ⟨f, rest, hz, h10.symm, h6, h7, rule_of_split (hi.small f (mem_of_getElem? h3)) hpos h8 h8' h9, ?_⟩
    rw [h11]
    refine List.Perm.of_eq ?_
    have hk : ∀ r : Rect, keep r = [r].filter fun r => 0 < r.width ∧ 0 < r.height := by
      intro r
      unfold keep
      by_cases hc : r.width > 0 ∧ r.height > 0
      · rw [if_pos hc, List.filter_cons_of_pos (by simpa using hc), List.filter_nil]
      · rw [if_neg hc, List.filter_cons_of_neg (by simpa using hc), List.filter_nil]
    rw [hk, hk, ← List.filter_append]
    rfl

/-- In a bin of 10×8 a rectangle of 4×3 leaves a strip below that is as wide as the bin if the smaller part is to be small, and as wide as the
rectangle if it is to be large. -/
example : ∃ p, Reached 10 8 1 p ∧ (∃ p' res, insertChoice p 4 3 .area .minArea true = .ok (p', res) ∧ res.placed = true ∧
    p'.free.live = [⟨0, 3, 10, 5⟩, ⟨4, 0, 6, 3⟩]) ∧ ∃ p' res, insertChoice p 4 3 .area .maxArea true = .ok (p', res) ∧ res.placed = true ∧
    p'.free.live = [⟨0, 3, 4, 5⟩, ⟨4, 0, 6, 8⟩] :=
  ⟨_, ⟨by decide, by decide, by decide, false, 2, 1, _, [], .inr (by decide), nofun, rfl, rfl⟩, ⟨_, _, rfl, rfl, rfl⟩, _, _, rfl, rfl, rfl⟩

/-! ### C94 Merging makes progress -/

theorem edge_of_joinable {a b : Rect} (ha : Pos a) (hb : Pos b) (hab : Apart a b) (h : Joinable a b) : Edge a b := by
  obtain ⟨m, hm⟩ := h
  obtain ⟨a1, a2⟩ := ha
  obtain ⟨b1, b2⟩ := hb
  unfold Apart at hab
  unfold Covers at hm hab
  have k1 := (hm a.left a.top).mpr (.inl (by omega))
  have k2 := (hm (a.left + a.width - 1) (a.top + a.height - 1)).mpr (.inl (by omega))
  have k3 := (hm b.left b.top).mpr (.inr (by omega))
  have k4 := (hm (b.left + b.width - 1) (b.top + b.height - 1)).mpr (.inr (by omega))
  have hsep : a.left + a.width ≤ b.left ∨ b.left + b.width ≤ a.left ∨ a.top + a.height ≤ b.top ∨ b.top + b.height ≤ a.top := by
    by_cases hc : a.left + a.width ≤ b.left ∨ b.left + b.width ≤ a.left ∨ a.top + a.height ≤ b.top ∨ b.top + b.height ≤ a.top
    · exact hc
    · exfalso
      exact hab (max a.left b.left) (max a.top b.top) (by omega)
  unfold Edge
  rcases hsep with hs | hs | hs | hs
  · right
    have c1 := (hm (a.left + a.width) a.top).mp (by omega)
    have c2 := (hm (b.left - 1) b.top).mp (by omega)
    have c3 := (hm (a.left + a.width) (a.top + a.height - 1)).mp (by omega)
    have c4 := (hm (b.left - 1) (b.top + b.height - 1)).mp (by omega)
    omega
  · right
    have c1 := (hm (b.left + b.width) b.top).mp (by omega)
    have c2 := (hm (a.left - 1) a.top).mp (by omega)
    have c3 := (hm (b.left + b.width) (b.top + b.height - 1)).mp (by omega)
    have c4 := (hm (a.left - 1) (a.top + a.height - 1)).mp (by omega)
    omega
  · left
    have c1 := (hm a.left (a.top + a.height)).mp (by omega)
    have c2 := (hm b.left (b.top - 1)).mp (by omega)
    have c3 := (hm (a.left + a.width - 1) (a.top + a.height)).mp (by omega)
    have c4 := (hm (b.left + b.width - 1) (b.top - 1)).mp (by omega)
    omega
  · left
    have c1 := (hm b.left (b.top + b.height)).mp (by omega)
    have c2 := (hm a.left (a.top - 1)).mp (by omega)
    have c3 := (hm (b.left + b.width - 1) (b.top + b.height)).mp (by omega)
    have c4 := (hm (a.left + a.width - 1) (a.top - 1)).mp (by omega)
    omega

theorem joinable_of_edge {a b : Rect} (ha : Pos a) (hb : Pos b) (h : Edge a b) : Joinable a b := by
  obtain ⟨a1, a2⟩ := ha
  obtain ⟨b1, b2⟩ := hb
  unfold Edge at h
  unfold Joinable Covers
  rcases h with ⟨h1, h2, h3⟩ | ⟨h1, h2, h3⟩
  · exact ⟨⟨a.left, min a.top b.top, a.width, a.height + b.height⟩, fun x y => by dsimp only; omega⟩
  · exact ⟨⟨min a.left b.left, a.top, a.width + b.width, a.height⟩, fun x y => by dsimp only; omega⟩

theorem apart_of_covering {l : List Rect} (hcov : ∀ x y, covering l x y ≤ 1) : l.Pairwise Apart := by
  induction l with
  | nil => exact .nil
  | cons r l ih =>
    refine .cons (fun s hs x y hc => ?_) (ih fun x y => ?_)
    · have h1 := hcov x y
      unfold covering at h1
      rw [List.countP_cons, if_pos (by simpa using hc.1)] at h1
      have h2 : 0 < l.countP fun r => decide (Covers r x y) := List.countP_pos_iff.mpr ⟨s, hs, by simpa using hc.2⟩
      omega
    · have h1 := hcov x y
      unfold covering at h1 ⊢
      rw [List.countP_cons] at h1
      omega

theorem merge_inv {W H : Int} {p : Pack} (hi : Inv W H p) :
    ∃ p', merge p = .ok p' ∧ Inv W H p' ∧ p'.used = p.used ∧ (∀ x y, covering p'.free.live x y = covering p.free.live x y) ∧
      (p.free.live.Pairwise (fun a b => ¬ Joinable a b) → p' = p) ∧
      (¬ p.free.live.Pairwise (fun a b => ¬ Joinable a b) → p'.free.live.length < p.free.live.length) := by
  obtain ⟨p', e1, e2, e3, _, _, _, _, e4, e5⟩ := merge_ok' hi
  have hcov : ∀ x y, covering p'.free.live x y = covering p.free.live x y := by
    intro x y
    have h1 := hi.tiles.tile (cov x y) (meas_cov x y)
    have h2 := e2.tiles.tile (cov x y) (meas_cov x y)
    rw [tot_cov, tot_cov] at h1 h2
    rw [e3] at h2
    omega
  have hone : ∀ x y, covering p.free.live x y ≤ 1 := by
    intro x y
    have h1 := hi.tiles.tile (cov x y) (meas_cov x y)
    rw [tot_cov, tot_cov] at h1
    have h3 : cov x y ⟨0, 0, W, H⟩ ≤ 1 := by unfold cov; split <;> omega
    omega
  have hap := apart_of_covering hone
  refine ⟨p', e1, e2, e3, hcov, fun hno => ?_, fun hyes => ?_⟩
  · refine e5 ?_
    rcases e4 with ⟨h, _⟩ | ⟨_, k, l, a, b, _, hkl, hk, hl, hE⟩
    · exact h
    · exfalso
      obtain ⟨hk', rfl⟩ := List.getElem?_eq_some_iff.mp hk
      obtain ⟨hl', rfl⟩ := List.getElem?_eq_some_iff.mp hl
      exact List.pairwise_iff_getElem.mp hno k l hk' hl' hkl
        (joinable_of_edge (hi.tiles.posF _ (List.getElem_mem hk')) (hi.tiles.posF _ (List.getElem_mem hl')) hE)
  · rcases e4 with ⟨_, h⟩ | ⟨h, _⟩
    swap
    · exact h
    exfalso
    refine hyes (List.pairwise_iff_getElem.mpr fun i j hi' hj hij hJ => ?_)
    refine h i j p.free.live[i] p.free.live[j] (Nat.zero_le _) hij (List.getElem?_eq_getElem hi') (List.getElem?_eq_getElem hj) ?_
    exact edge_of_joinable (hi.tiles.posF _ (List.getElem_mem hi')) (hi.tiles.posF _ (List.getElem_mem hj))
      (List.pairwise_iff_getElem.mp hap i j hi' hj hij) hJ

/-- Merging leaves the placed rectangles and the free cells as they are. If no two free rectangles are together a rectangle, it changes nothing at
all, and else there are fewer free rectangles afterwards. -/
theorem C94_merge {W H : Int} {p : Pack} (h : Reached W H 0 p) :
    ∃ p', merge p = .ok p' ∧ p'.used = p.used ∧ (∀ x y, covering p'.free.live x y = covering p.free.live x y) ∧
      (p.free.live.Pairwise (fun a b => ¬ Joinable a b) → p' = p) ∧
      (¬ p.free.live.Pairwise (fun a b => ¬ Joinable a b) → p'.free.live.length < p.free.live.length) := by
  obtain ⟨p', e1, _, e2⟩ := merge_inv (reached_inv h).1
  exact ⟨p', e1, e2⟩

/-- An example: of three free rectangles two are together a rectangle. -/
def joinOps : List Op := [.insert 1 2 .area .longerLeftover false, .insert 2 1 .area .shorterLeftover false,
  .insert 3 2 .area .shorterLeftover false, .insert 2 1 .area .shorterLeftover false]

theorem joinReached : ∃ p, Reached 4 4 0 p ∧ p.free.live = [⟨3, 0, 1, 1⟩, ⟨3, 2, 1, 2⟩, ⟨3, 1, 1, 1⟩] := by
  refine ⟨_, ⟨by decide, by decide, by decide, true, 16, 16, _, joinOps, .inl rfl, ?_, rfl, rfl⟩, by rfl⟩
  intro op hop
  simp only [joinOps, List.mem_cons, List.not_mem_nil, or_false] at hop
  rcases hop with rfl | rfl | rfl | rfl <;> exact ⟨by decide, by decide⟩

example : ∃ p, Reached 4 4 0 p ∧ ¬ p.free.live.Pairwise (fun a b => ¬ Joinable a b) := by
  obtain ⟨p, h1, h2⟩ := joinReached
  refine ⟨p, h1, fun h => ?_⟩
  rw [h2] at h
  have := List.rel_of_pairwise_cons h (a' := ⟨3, 1, 1, 1⟩) (by simp)
  exact this (joinable_of_edge ⟨by decide, by decide⟩ ⟨by decide, by decide⟩ (by unfold Edge; decide))

example : ∃ p, Reached 10 10 0 p ∧ p.free.live.Pairwise (fun a b => ¬ Joinable a b) :=
  ⟨_, ⟨by decide, by decide, by decide, false, 2, 1, _, [], .inr (by decide), nofun, rfl, rfl⟩, by simp⟩

/-! ### C95 One merge is not enough -/

/-- After merging there may still be two free rectangles that are together a rectangle: the first two rectangles below are joined, and the result
is not compared again with the third. -/
theorem C95_not_all_joined : ∃ p, Reached 4 4 0 p ∧ ∃ p', merge p = .ok p' ∧ ∃ a b, p'.free.live = [a, b] ∧ Joinable a b := by
  refine ⟨_, ⟨by decide, by decide, by decide, true, 16, 16, _, joinOps, .inl rfl, ?_, rfl, rfl⟩, _, rfl, ⟨3, 0, 1, 2⟩, ⟨3, 2, 1, 2⟩, by decide, ?_⟩
  · intro op hop
    simp only [joinOps, List.mem_cons, List.not_mem_nil, or_false] at hop
    rcases hop with rfl | rfl | rfl | rfl <;> exact ⟨by decide, by decide⟩
  · exact joinable_of_edge ⟨by decide, by decide⟩ ⟨by decide, by decide⟩ (by unfold Edge; decide)

/-- After merging as often as there are free rectangles no two of the free rectangles are together a rectangle. -/
theorem C95_repeated_partial {W H : Int} {p : Pack} (h : Reached W H 0 p) :
    ∃ p', merges p p.free.live.length = .ok p' ∧ p'.free.live.Pairwise (fun a b => ¬ Joinable a b) := by
  have key : ∀ (n : Nat) (p : Pack), Inv W H p → p.free.live.length ≤ n →
      ∃ p', merges p n = .ok p' ∧ p'.free.live.Pairwise (fun a b => ¬ Joinable a b) := by
    intro n
    induction n with
    | zero =>
      intro p _ hn
      refine ⟨p, rfl, ?_⟩
      rw [List.length_eq_zero_iff.mp (Nat.le_zero.mp hn)]
      exact .nil
    | succ n ih =>
      intro p hi hn
      obtain ⟨p', e1, e2, _, _, e3, e4⟩ := merge_inv hi
      unfold merges
      rw [e1, ok_bind]
      by_cases hc : p.free.live.Pairwise (fun a b => ¬ Joinable a b)
      · have : ∀ m, merges p m = .ok p := by
          intro m
          induction m with
          | zero => rfl
          | succ m ihm =>
            unfold merges
            rw [e1, ok_bind, e3 hc]
            exact ihm
        rw [e3 hc]
        exact ⟨p, this n, hc⟩
      · exact ih p' e2 (by have := e4 hc; omega)
  exact key _ p (reached_inv h).1 (Nat.le_refl _)

example : ∃ p, Reached 4 4 0 p ∧ p.free.live.length = 3 := joinReached.imp fun p h => ⟨h.1, by rw [h.2]; rfl⟩

end Tm.Pack
