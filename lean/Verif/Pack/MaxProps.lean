import Verif.Pack.MaxBatch
import Verif.Pack.MaxTotal

/-! # Properties of packing with the MaxRects functions -/

namespace Tm.Pack

open Tm

/-! ### An example -/

/-- Two rectangles in a bin of 10×10, with three free rectangles that overlap. -/
def examplePack : Pack :=
  ⟨10, 10, 25, ⟨[⟨7, 0, 3, 10⟩, ⟨0, 4, 10, 6⟩, ⟨4, 3, 6, 7⟩], [⟨7, 0, 3, 10⟩], 50, 0⟩, ⟨[⟨0, 0, 4, 4⟩, ⟨4, 0, 3, 3⟩], [], 4, 0⟩, false⟩

/-- The pack before the second insertion. -/
def examplePack1 : Pack :=
  ⟨10, 10, 16, ⟨[⟨4, 0, 6, 10⟩, ⟨0, 4, 10, 6⟩], [⟨4, 0, 6, 10⟩], 50, 0⟩, ⟨[⟨0, 0, 4, 4⟩], [], 4, 0⟩, false⟩

theorem examplePack_noExact : NoExact 10 10 examplePack := by
  have h0 : NoExact 10 10 ⟨10, 10, 0, ⟨[⟨0, 0, 10, 10⟩], [], 50, 0⟩, ⟨[], [], 4, 0⟩, false⟩ :=
    .create (dyn := false) (freeCap := 50) (usedCap := 4) rfl
  have h1 : NoExact 10 10 examplePack1 :=
    .insert (w := 4) (h := 4) (fit := .shortSide) (flip := true) (res := ⟨⟨0, 0, 4, 4⟩, false, true⟩) h0 (by decide) (by decide)
      (by simp [ExactIn]) (by decide +kernel)
  exact .insert (w := 3) (h := 3) (fit := .contact) (flip := true) (res := ⟨⟨4, 0, 3, 3⟩, false, true⟩) h1 (by decide) (by decide)
      (by simp [ExactIn, examplePack1]) (by decide +kernel)

theorem NoExact.reached {W H : Int} {p : Pack} (h : NoExact W H p) : MReached W H p := by
  induction h with
  | create h => exact .create h
  | insert _ h1 h2 _ h4 ih => exact .insert ih h1 h2 h4
  | clear _ ih => exact .clear ih

/-! ### C86 Placed rectangles lie in the bin and have the size that was asked for -/

/-- After any history the placed rectangles lie in the bin and have positive sizes, and the used area is the sum of their areas. -/
theorem C86_inside {W H : Int} (hW : 1 ≤ W ∧ W ≤ 2147483647) (hH : 1 ≤ H ∧ H ≤ 2147483647) {p : Pack} (h : MReached W H p) :
    (∀ r ∈ p.used.live, Inside W H r ∧ 0 < r.width ∧ 0 < r.height) ∧ p.usedArea = areas p.used.live := by
  have hi := mreached_inv ⟨hW, hH⟩ h
  exact ⟨fun r hr => ⟨(hi.used r hr).2, (hi.used r hr).1.1, (hi.used r hr).1.2⟩, hi.area⟩

/-- If an insertion placed the rectangle, it is the new last one, has the size that was asked for, and is turned only if that was allowed. If it
was not placed, nothing has changed. -/
theorem C86_insert {W H : Int} (hW : 1 ≤ W ∧ W ≤ 2147483647) (hH : 1 ≤ H ∧ H ≤ 2147483647) {p : Pack} (h : MReached W H p) {w ht : Int} (hw : 1 ≤ w)
    (hh : 1 ≤ ht) {fit : MFit} {flip : Bool} {p' : Pack} {res : Placed} (hins : mInsertChoice p w ht fit flip = .ok (p', res)) :
    if res.placed then p'.used.live = p.used.live ++ [res.rect] ∧ Sized flip w ht res else p' = p := by
  obtain ⟨_, h1 | h1⟩ := mInsertChoice_weak (mreached_inv ⟨hW, hH⟩ h) hw hh hins
  · rw [h1.2.1]
    exact h1.1
  · rw [h1.2.1]
    exact ⟨h1.1, h1.2.2.1⟩

example : ∃ p, MReached 10 10 p ∧ p.used.live.length = 2 ∧ ∃ p' res, mInsertChoice p 2 9 .contact true = .ok (p', res) ∧ res = ⟨⟨0, 4, 9, 2⟩, true, true⟩ :=
  ⟨examplePack, examplePack_noExact.reached, rfl, _, _, rfl, by decide +kernel⟩

/-! ### C87 Placed rectangles do not overlap -/

/-- As long as no rectangle had exactly the size of a free rectangle, the placed rectangles share no cell, also after one more insertion of any
size, and their areas add up to at most the area of the bin. -/
theorem C87_apart_partial {W H : Int} (hW : 1 ≤ W ∧ W ≤ 2147483647) (hH : 1 ≤ H ∧ H ≤ 2147483647) {p : Pack} (h : NoExact W H p) :
    p.used.live.Pairwise Apart ∧ p.usedArea ≤ W * H ∧
    ∀ {w ht : Int} {fit : MFit} {flip : Bool} {p' : Pack} {res : Placed}, 1 ≤ w → 1 ≤ ht → mInsertChoice p w ht fit flip = .ok (p', res) →
      p'.used.live.Pairwise Apart := by
  have hi := noExact_inv ⟨hW, hH⟩ h
  refine ⟨hi.apart, ?_, ?_⟩
  · rw [hi.area]
    exact areas_le (by omega) (by omega) hi.apart hi.used
  · intro w ht fit flip p' res hw hh hins
    obtain ⟨_, h1 | ⟨h1, h2, h3, f, hf, g1, g2, g3, g4, _⟩⟩ := mInsertChoice_weak (mreached_inv ⟨hW, hH⟩ h.reached) hw hh hins
    · rw [h1.1]
      exact hi.apart
    · rw [h1, List.pairwise_append]
      refine ⟨hi.apart, List.pairwise_singleton _ _, fun a ha b hb => ?_⟩
      rw [List.mem_singleton] at hb
      subst hb
      refine apart_symm (apart_within ((hi.free f hf).2.2 a ha) ?_)
      unfold Within
      omega

example : ∃ p, NoExact 10 10 p ∧ p.used.live.length = 2 := ⟨examplePack, examplePack_noExact, rfl⟩

/-- In general they do overlap. In a bin of 10×10, after rectangles of 5×5 and 5×10, of which the second fills a free rectangle exactly, there is a
place for one of 10×5: it overlaps the second, and more area is used than there is. -/
theorem C87_not_apart : ∃ p, MReached 10 10 p ∧ p.used.live = [⟨0, 0, 5, 5⟩, ⟨5, 0, 5, 10⟩, ⟨0, 5, 10, 5⟩] ∧ ¬ p.used.live.Pairwise Apart ∧
    p.usedArea = 125 := by
  have h0 : MReached 10 10 ⟨10, 10, 0, ⟨[⟨0, 0, 10, 10⟩], [], 20, 0⟩, ⟨[], [], 4, 0⟩, false⟩ :=
    .create (dyn := false) (freeCap := 20) (usedCap := 4) rfl
  have h1 := MReached.insert (w := 5) (h := 5) (fit := .shortSide) (flip := false) h0 (by decide) (by decide) rfl
  have h2 := MReached.insert (w := 5) (h := 10) (fit := .shortSide) (flip := false) h1 (by decide) (by decide) rfl
  have h3 := MReached.insert (w := 10) (h := 5) (fit := .shortSide) (flip := false) h2 (by decide) (by decide) rfl
  refine ⟨_, h3, by decide +kernel, ?_, by decide +kernel⟩
  intro hp
  have he : (([⟨0, 0, 5, 5⟩, ⟨5, 0, 5, 10⟩, ⟨0, 5, 10, 5⟩] : List Rect)).Pairwise Apart := hp
  rw [List.pairwise_cons, List.pairwise_cons] at he
  exact he.2.1 ⟨0, 5, 10, 5⟩ (by simp) 5 5 ⟨by decide, by decide⟩

/-! ### C88 A place is found if there is one anywhere -/

/-- As long as no rectangle had exactly the size of a free rectangle, a rectangle of any size is placed if and only if there is a place for it
anywhere in the bin that shares no cell with those placed before. -/
theorem C88_finds_partial {W H : Int} (hW : 1 ≤ W ∧ W ≤ 2147483647) (hH : 1 ≤ H ∧ H ≤ 2147483647) {p : Pack} (h : NoExact W H p) {w ht : Int} (hw : 1 ≤ w)
    (hh : 1 ≤ ht) {fit : MFit} {flip : Bool} {p' : Pack} {res : Placed} (hins : mInsertChoice p w ht fit flip = .ok (p', res)) :
    res.placed = true ↔ ∃ q, Place W H p.used.live flip w ht q := by
  have hi := noExact_inv ⟨hW, hH⟩ h
  obtain ⟨_, h1 | ⟨h1, h2, h3, f, hf, g1, g2, g3, g4, _⟩⟩ := mInsertChoice_weak (mreached_inv ⟨hW, hH⟩ h.reached) hw hh hins
  · rw [h1.2.1]
    refine ⟨fun h => absurd h (by decide), fun ⟨q, k1, k2, k3⟩ => ?_⟩
    obtain ⟨f, hf, hqf⟩ := hi.complete q (by unfold Pos; omega) k2 k3
    refine absurd ?_ (h1.2.2 f hf)
    unfold Within at hqf
    unfold RoomIn FitsIn
    rcases k1 with k1 | k1
    · left; omega
    · right; exact ⟨k1.1, by omega, by omega⟩
  · refine ⟨fun _ => ⟨res.rect, ?_, ?_, ?_⟩, fun _ => h2⟩
    · unfold Sized at h3
      split at h3
      · exact .inr h3
      · exact .inl h3
    · refine inside_within (hi.free f hf).2.1 ?_
      unfold Within
      omega
    · intro r hr
      refine apart_within ((hi.free f hf).2.2 r hr) ?_
      unfold Within
      omega

/-- As long as no rectangle had exactly the size of a free rectangle, the free rectangles are exactly the maximal empty ones. -/
theorem C88_maximal_partial {W H : Int} (hW : 1 ≤ W ∧ W ≤ 2147483647) (hH : 1 ≤ H ∧ H ≤ 2147483647) {p : Pack} (h : NoExact W H p) (r : Rect) :
    r ∈ p.free.live ↔ (0 < r.width ∧ 0 < r.height) ∧ Place W H p.used.live false r.width r.height r ∧
      ∀ q, Place W H p.used.live false q.width q.height q → Within r q → q = r := by
  have hi := noExact_inv ⟨hW, hH⟩ h
  constructor
  · intro hr
    obtain ⟨k1, k2, k3⟩ := hi.free r hr
    refine ⟨k1, ⟨.inl ⟨rfl, rfl⟩, k2, k3⟩, fun q ⟨_, q2, q3⟩ hrq => ?_⟩
    obtain ⟨f, hf, hqf⟩ := hi.complete q (by unfold Within at hrq; have := k1.1; have := k1.2; unfold Pos; omega) q2 q3
    have := hi.eq_of_within hr hf (hrq.trans hqf)
    subst this
    obtain ⟨a, b, c, d⟩ := r
    obtain ⟨a', b', c', d'⟩ := q
    unfold Within at hrq hqf
    dsimp only at hrq hqf
    simp only [Rect.mk.injEq]
    omega
  · intro ⟨k1, ⟨_, k2, k3⟩, k4⟩
    obtain ⟨f, hf, hrf⟩ := hi.complete r k1 k2 k3
    obtain ⟨_, f2, f3⟩ := hi.free f hf
    rw [← k4 f ⟨.inl ⟨rfl, rfl⟩, f2, f3⟩ hrf]
    exact hf

/-- In the example pack there is room for a rectangle of 7×6 and for none of 7×7. -/
example : ∃ p, NoExact 10 10 p ∧ (∃ p' res, mInsertChoice p 7 6 .area true = .ok (p', res) ∧ res.placed = true) ∧
    ∃ p' res, mInsertChoice p 7 7 .area true = .ok (p', res) ∧ res.placed = false :=
  ⟨examplePack, examplePack_noExact, ⟨_, _, rfl, by decide +kernel⟩, _, _, rfl, by decide +kernel⟩

/-- In general a rectangle is placed although there is no place for it. -/
theorem C88_not_finds : ∃ p, MReached 10 10 p ∧ (∃ p' res, mInsertChoice p 10 5 .shortSide false = .ok (p', res) ∧ res.placed = true) ∧
    ¬ ∃ q, Place 10 10 p.used.live false 10 5 q := by
  have h0 : MReached 10 10 ⟨10, 10, 0, ⟨[⟨0, 0, 10, 10⟩], [], 20, 0⟩, ⟨[], [], 4, 0⟩, false⟩ :=
    .create (dyn := false) (freeCap := 20) (usedCap := 4) rfl
  have h1 := MReached.insert (w := 5) (h := 5) (fit := .shortSide) (flip := false) h0 (by decide) (by decide) rfl
  have h2 : MReached 10 10 ⟨10, 10, 75, ⟨[⟨0, 5, 10, 5⟩], [⟨0, 5, 5, 5⟩, ⟨5, 0, 5, 10⟩], 20, 0⟩, ⟨[⟨0, 0, 5, 5⟩, ⟨5, 0, 5, 10⟩], [], 4, 0⟩, false⟩ :=
    MReached.insert (w := 5) (h := 10) (fit := .shortSide) (flip := false) (res := ⟨⟨5, 0, 5, 10⟩, false, true⟩) h1 (by decide) (by decide) (by decide +kernel)
  refine ⟨_, h2, ⟨_, _, rfl, by decide +kernel⟩, fun ⟨q, k1, k2, k3⟩ => ?_⟩
  have k4 : Apart q ⟨5, 0, 5, 10⟩ := k3 ⟨5, 0, 5, 10⟩ (by simp)
  have k5 : (q.width = 10 ∧ q.height = 5) := by simpa using k1
  unfold Inside at k2
  refine k4 5 q.top ⟨?_, ?_⟩
  · unfold Covers; omega
  · unfold Covers; dsimp only; omega

/-! ### C89 The place is the best by the rule -/

/-- After any history, a rectangle that is placed is put into a corner of a free rectangle, and no other free rectangle and no other way to put it
into one has a better rank; and it is placed if and only if it fits into a free rectangle. -/
theorem C89_best {W H : Int} (hW : 1 ≤ W ∧ W ≤ 2147483647) (hH : 1 ≤ H ∧ H ≤ 2147483647) {p : Pack} (h : MReached W H p) {w ht : Int} (hw : 1 ≤ w)
    (hh : 1 ≤ ht) {fit : MFit} {flip : Bool} {p' : Pack} {res : Placed} (hins : mInsertChoice p w ht fit flip = .ok (p', res)) :
    (res.placed = true ↔ ∃ r ∈ p.free.live, RoomIn flip w ht r) ∧
      (res.placed = true → MBestPlace W H p.used.live fit flip p.free.live w ht res) := by
  obtain ⟨_, h1 | ⟨h1, h2, h3, h4⟩⟩ := mInsertChoice_weak (mreached_inv ⟨hW, hH⟩ h) hw hh hins
  · rw [h1.2.1]
    exact ⟨⟨fun h => absurd h (by decide), fun ⟨r, hr, hroom⟩ => absurd hroom (h1.2.2 r hr)⟩, fun h => absurd h (by decide)⟩
  · refine ⟨⟨fun _ => ?_, fun _ => h2⟩, fun _ => h4⟩
    obtain ⟨f, hf, _, _, g3, g4, _⟩ := h4
    refine ⟨f, hf, ?_⟩
    unfold Sized at h3
    unfold RoomIn FitsIn
    split at h3
    · right; exact ⟨h3.1, by omega, by omega⟩
    · left; omega

/-- In the example pack the rules differ: a rectangle of 3×5 goes to different places. -/
example : ∃ p, MReached 10 10 p ∧ (∃ p' res, mInsertChoice p 3 5 .shortSide false = .ok (p', res) ∧ res.rect = ⟨7, 0, 3, 5⟩) ∧
    (∃ p' res, mInsertChoice p 3 5 .longSide false = .ok (p', res) ∧ res.rect = ⟨4, 3, 3, 5⟩) ∧
    ∃ p' res, mInsertChoice p 5 3 .bottomLeft false = .ok (p', res) ∧ res.rect = ⟨4, 3, 5, 3⟩ :=
  ⟨examplePack, examplePack_noExact.reached, ⟨_, _, rfl, by decide +kernel⟩, ⟨_, _, rfl, by decide +kernel⟩, _, _, rfl, by decide +kernel⟩

/-! ### C90 Memory -/

/-- The recommended memory for the worst case, five times the number of rectangles, does not suffice: eleven rectangles in a bin of 30×30 run into
the assertion for static memory with room for 55 free rectangles. -/
theorem C90_not_enough : ∃ p, create false 30 30 55 11 = .ok p ∧ mInserts .area false p
    [(26, 3), (5, 21), (7, 1), (1, 5), (1, 3), (13, 1), (1, 10), (20, 2), (1, 3), (1, 19), (1, 5)] = .error .assertion :=
  ⟨_, rfl, by decide +kernel⟩

/-- With memory that grows, an insertion for which it has to grow is undefined: it goes on reading the old block. -/
theorem C90_not_growing : ∃ p, create true 10 10 1 4 = .ok p ∧ mInserts .area false p [(5, 5), (2, 2)] = .error .invalid :=
  ⟨_, rfl, by decide +kernel⟩

/-- An insertion that finds memory for four times as many free rectangles as there are, and one more, ends without error, if the numbers are
representable and no free rectangle has exactly the size of the rectangle. -/
theorem C90_no_fault_partial {W H : Int} (hW : 1 ≤ W ∧ W ≤ 2147483647) (hH : 1 ≤ H ∧ H ≤ 2147483647) (hA : W * H ≤ 2147483647) {p : Pack} (h : NoExact W H p)
    {w ht : Int} (hw : 1 ≤ w) (hh : 1 ≤ ht) {fit : MFit} {flip : Bool} (hrep : Representable W H fit w ht)
    (hnex : ∀ r ∈ p.free.live, ¬ ExactIn flip w ht r) (hcapF : 4 * p.free.live.length + 1 ≤ p.free.cap)
    (hcapU : p.dyn = true ∨ p.used.live.length < p.used.cap) : ∃ p' res, mInsertChoice p w ht fit flip = .ok (p', res) :=
  mInsertChoice_total (noExact_inv ⟨hW, hH⟩ h) hw hh hrep hA hnex hcapF hcapU

example : ∃ p, NoExact 10 10 p ∧ Representable 10 10 .contact 2 9 ∧ (∀ r ∈ p.free.live, ¬ ExactIn true 2 9 r) ∧ 4 * p.free.live.length + 1 ≤ p.free.cap ∧
    p.used.live.length < p.used.cap :=
  ⟨examplePack, examplePack_noExact, by unfold Representable; decide, by simp [ExactIn, examplePack], by decide, by decide⟩

/-! ### C91 Batches -/

/-- After any history, `maxRectsInsertBatch` does what inserting one rectangle after the other in some order does, until there is room for none of
the remaining. The rectangles are only reordered: those without a place come first, and the others follow in the reverse of the order of the
results, each of which has the user data and the size of its rectangle. By all rules but one, every step takes the rectangle that has the best
place. -/
theorem C91_batch_partial {W H : Int} (hW : 1 ≤ W ∧ W ≤ 2147483647) (hH : 1 ≤ H ∧ H ≤ 2147483647) {p : Pack} (h : MReached W H p) (dims : List Dim)
    (hpos : ∀ d ∈ dims, 1 ≤ d.width ∧ 1 ≤ d.height) {fit : MFit} {flip : Bool} {p' : Pack} {ds : List Dim} {rs : List (Placed × Nat)}
    (hb : mInsertBatch fit flip dims.length p dims = .ok (p', ds, rs)) :
    ∃ left done, ds = left ++ done.reverse ∧ ds.Perm dims ∧
      Sequence fit flip (fun p ds _ res => fit ≠ .longSide → MBestOf W H p.used.live fit flip p.free.live ds res) p dims p' rs left ∧
      List.Forall₂ (fun x d => x.1.placed = true ∧ x.2 = d.user ∧ Sized flip d.width d.height x.1) rs done ∧
      p'.used.live = p.used.live ++ rs.map (·.1.rect) := by
  obtain ⟨_, k3, k4, k5, k6, k9, k10⟩ := mInsertBatch_ok fit flip dims.length p dims p' ds rs (mreached_inv ⟨hW, hH⟩ h) (Nat.le_refl _) hpos hb
  have ht : ds.take dims.length = ds := by rw [← k3.length_eq, List.take_length]
  rw [ht] at k9
  rw [List.take_length] at k10
  exact ⟨ds.take (dims.length - rs.length), (ds.drop (dims.length - rs.length)).reverse, by rw [List.reverse_reverse, List.take_append_drop], k3, k10, k9, k6⟩

/-- A batch of three of which two have a place. -/
example : ∃ p, MReached 10 10 p ∧ ∃ p' ds rs, mInsertBatch .area true 3 p [⟨1, 3, 1⟩, ⟨9, 9, 2⟩, ⟨6, 9, 3⟩] = .ok (p', ds, rs) ∧
    rs.map (·.2) = [3, 1] ∧ ds.map (·.user) = [2, 1, 3] :=
  ⟨examplePack, examplePack_noExact.reached, _, _, _, rfl, by decide +kernel, by decide +kernel⟩

/-- By the long side rule the order is not that of the ranks: of 9×2 and 5×5 in an empty bin of 10×10, 9×2 is taken first, although the longer
side that is left over is 8, and with 5×5 it is 5. -/
theorem C91_not_best : ∃ p, MReached 10 10 p ∧ ∃ p' ds res rs, mInsertBatch .longSide false 2 p [⟨9, 2, 1⟩, ⟨5, 5, 2⟩] = .ok (p', ds, (res, 1) :: rs) ∧
    ¬ MBestOf 10 10 p.used.live .longSide false p.free.live [⟨9, 2, 1⟩, ⟨5, 5, 2⟩] res := by
  have h0 : MReached 10 10 ⟨10, 10, 0, ⟨[⟨0, 0, 10, 10⟩], [], 20, 0⟩, ⟨[], [], 4, 0⟩, false⟩ :=
    .create (dyn := false) (freeCap := 20) (usedCap := 4) rfl
  refine ⟨_, h0, _, _, ⟨⟨0, 0, 9, 2⟩, false, true⟩, _, rfl, fun h => ?_⟩
  obtain ⟨f, hf, _, _, _, _, h2⟩ := h ⟨5, 5, 2⟩ (by simp)
  have h3 := (h2 ⟨0, 0, 10, 10⟩ (by decide)).1 (by decide)
  rw [List.mem_singleton] at hf
  subst hf
  exact absurd h3 (by decide)

/-! ### C92 Looking for a place computes only representable numbers -/

/-- The area of the rectangle must be representable by the area rule, even if there is no room for it. -/
theorem C92_not_any_area : ∃ p, MReached 10 10 p ∧ mInsertChoice p 65536 65536 .area false = .error .overflow :=
  ⟨_, .create (dyn := false) (freeCap := 20) (usedCap := 4) rfl, by decide +kernel⟩

/-- By the contact rule, a rectangle that fills a bin of 2147483647×1 makes the sum of the sides overflow. -/
theorem C92_not_any_outline : ∃ p, MReached 2147483647 1 p ∧ mInsertChoice p 2147483647 1 .contact false = .error .overflow :=
  ⟨_, .create (dyn := false) (freeCap := 20) (usedCap := 4) rfl, by decide +kernel⟩

/-- If the numbers that the rule computes with are representable, looking for a place does not fail. -/
theorem C92_choice_partial {W H : Int} (hW : 1 ≤ W ∧ W ≤ 2147483647) (hH : 1 ≤ H ∧ H ≤ 2147483647) {p : Pack} (h : NoExact W H p) {w ht : Int} (hw : 1 ≤ w)
    (hh : 1 ≤ ht) {fit : MFit} {flip : Bool} (hrep : Representable W H fit w ht) : ∃ c, mChoice p w ht fit flip = .ok c :=
  mChoice_total (noExact_inv ⟨hW, hH⟩ h) hw hh hrep

example : ∃ p, NoExact 10 10 p ∧ Representable 10 10 .area 46340 46340 :=
  ⟨examplePack, examplePack_noExact, by unfold Representable; decide⟩

end Tm.Pack
