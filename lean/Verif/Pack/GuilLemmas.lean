import Verif.Pack.ChoiceLemmas

/-! # Guillotine: the free and the used rectangles tile the bin -/

namespace Tm.Pack

open Tm

/-- The bin has a size whose area is representable. -/
structure Size (W H : Int) : Prop where
  w : 1 ≤ W
  h : 1 ≤ H
  a : W * H ≤ 2147483647

theorem Size.wle {W H : Int} (s : Size W H) : W ≤ 2147483647 := by
  have := s.w; have := s.h; have := s.a; nlinarith
theorem Size.hle {W H : Int} (s : Size W H) : H ≤ 2147483647 := by
  have := s.w; have := s.h; have := s.a; nlinarith

/-- The free and the used rectangles tile the bin. -/
structure Tiles (W H : Int) (free used : List Rect) : Prop where
  posF : ∀ r ∈ free, Pos r
  posU : ∀ r ∈ used, Pos r
  tile : ∀ f, Meas f → tot f free + tot f used = f ⟨0, 0, W, H⟩

theorem Tiles.le {W H : Int} {free used : List Rect} (t : Tiles W H free used) {f : Rect → Int} (m : Meas f) {r : Rect}
    (hr : r ∈ free ∨ r ∈ used) : f r ≤ f ⟨0, 0, W, H⟩ := by
  have h := t.tile f m
  have h1 := tot_nonneg m t.posF
  have h2 := tot_nonneg m t.posU
  rcases hr with hr | hr
  · have := tot_mem m t.posF hr
    omega
  · have := tot_mem m t.posU hr
    omega

theorem Tiles.pos {W H : Int} {free used : List Rect} (t : Tiles W H free used) {r : Rect} (hr : r ∈ free ∨ r ∈ used) : Pos r := by
  rcases hr with hr | hr
  · exact t.posF r hr
  · exact t.posU r hr

theorem Tiles.inside {W H : Int} {free used : List Rect} (t : Tiles W H free used) {r : Rect} (hr : r ∈ free ∨ r ∈ used) : Inside W H r := by
  obtain ⟨p1, p2⟩ := t.pos hr
  have h1 := t.le (meas_cov r.left r.top) hr
  have h2 := t.le (meas_cov (r.left + r.width - 1) (r.top + r.height - 1)) hr
  unfold cov at h1 h2
  rw [if_pos (by unfold Covers; omega)] at h1 h2
  have c1 : Covers ⟨0, 0, W, H⟩ r.left r.top := by
    by_contra hc
    rw [if_neg hc] at h1
    omega
  have c2 : Covers ⟨0, 0, W, H⟩ (r.left + r.width - 1) (r.top + r.height - 1) := by
    by_contra hc
    rw [if_neg hc] at h2
    omega
  unfold Covers at c1 c2
  dsimp only at c1 c2
  unfold Inside
  omega

theorem Tiles.small {W H : Int} {free used : List Rect} (t : Tiles W H free used) (hs : Size W H) {r : Rect} (hr : r ∈ free ∨ r ∈ used) : Small r := by
  have hi := t.inside hr
  have ha := t.le meas_area hr
  have := hs.wle
  have := hs.hle
  have h3 := hs.a
  unfold Inside at hi
  refine ⟨t.pos hr, by omega, by omega, ?_⟩
  unfold area at ha
  dsimp only at ha
  omega

theorem Tiles.perm {W H : Int} {f u f' : List Rect} (t : Tiles W H f u) (h : f'.Perm f) : Tiles W H f' u :=
  ⟨fun r hr => t.posF r (h.mem_iff.mp hr), t.posU, fun g m => by rw [tot_perm g h]; exact t.tile g m⟩

/-- The state of a pack that is used with the guillotine functions. -/
structure Inv (W H : Int) (p : Pack) : Prop where
  size : Size W H
  tiles : Tiles W H p.free.live p.used.live
  area : p.usedArea = tot area p.used.live
  okF : p.free.Ok
  okU : p.used.Ok
  count : p.free.live.length ≤ p.used.live.length + 1
  cap : p.free.cap ≠ 0

/-! ### The split -/

/-- The free rectangle after the split of `f` by `r`. -/
def parts (horizontal : Bool) (f r : Rect) : Rect × Rect :=
  (⟨f.left, f.top + r.height, if horizontal then f.width else r.width, f.height - r.height⟩,
   ⟨f.left + r.width, f.top, f.width - r.width, if horizontal then r.height else f.height⟩)

theorem parts_meas {g : Rect → Int} (m : Meas g) (b : Bool) (f r : Rect) (h1 : r.left = f.left) (h2 : r.top = f.top) (h3 : Pos r)
    (h4 : r.width ≤ f.width) (h5 : r.height ≤ f.height) : g f = g r + g (parts b f r).1 + g (parts b f r).2 := by
  obtain ⟨fl, ft, fw, fh⟩ := f
  obtain ⟨rl, rt, rw', rh⟩ := r
  obtain ⟨p1, p2⟩ := h3
  dsimp only at *
  subst h1 h2
  unfold parts
  dsimp only
  cases b with
  | true =>
    simp only [if_true]
    have e1 := m.vert rl rt fw rh (fh - rh) (by omega) (by omega) (by omega)
    have e2 := m.horiz rl rt rw' (fw - rw') rh (by omega) (by omega) (by omega)
    rw [show rh + (fh - rh) = fh from by omega] at e1
    rw [show rw' + (fw - rw') = fw from by omega] at e2
    omega
  | false =>
    simp only [Bool.false_eq_true, if_false]
    have e1 := m.horiz rl rt rw' (fw - rw') fh (by omega) (by omega) (by omega)
    have e2 := m.vert rl rt rw' rh (fh - rh) (by omega) (by omega) (by omega)
    rw [show rh + (fh - rh) = fh from by omega] at e2
    rw [show rw' + (fw - rw') = fw from by omega] at e1
    omega

theorem splitHorizontal_ok (s : Split) {f r : Rect} (hf : Small f) (hr : Pos r) (h4 : r.width ≤ f.width) (h5 : r.height ≤ f.height) :
    ∃ b, splitHorizontal s f r (f.width - r.width) (f.height - r.height) = .ok b := by
  have ⟨p, a, b, c⟩ := hf
  obtain ⟨q1, q2⟩ := hr
  have e1 : 0 ≤ r.width * (f.height - r.height) := Int.mul_nonneg (by omega) (by omega)
  have e2 : r.width * (f.height - r.height) ≤ f.width * f.height := Int.mul_le_mul h4 (by omega) (by omega) (by omega)
  have e3 : 0 ≤ (f.width - r.width) * r.height := Int.mul_nonneg (by omega) (by omega)
  have e4 : (f.width - r.width) * r.height ≤ f.width * f.height := Int.mul_le_mul (by omega) h5 (by omega) (by omega)
  unfold splitHorizontal
  cases s with
  | shorterLeftover => exact ⟨_, rfl⟩
  | longerLeftover => exact ⟨_, rfl⟩
  | minArea =>
    dsimp only
    rw [i32_ok (by omega) (by omega), ok_bind, i32_ok (by omega) (by omega), ok_bind]
    exact ⟨_, rfl⟩
  | maxArea =>
    dsimp only
    rw [i32_ok (by omega) (by omega), ok_bind, i32_ok (by omega) (by omega), ok_bind]
    exact ⟨_, rfl⟩
  | shorterAxis => exact ⟨_, rfl⟩
  | longerAxis => exact ⟨_, rfl⟩

/-- A part that is not empty. -/
def keep (r : Rect) : List Rect := if r.width > 0 ∧ r.height > 0 then [r] else []

theorem tot_keep {g : Rect → Int} (m : Meas g) (r : Rect) (h1 : 0 ≤ r.width) (h2 : 0 ≤ r.height) : tot g (keep r) = g r := by
  unfold keep
  split
  · simp [tot]
  · rename_i h
    obtain ⟨l, t, w, hh⟩ := r
    dsimp only at *
    by_cases hw : w = 0
    · subst hw
      rw [m.zeroW l t hh h2]; rfl
    · have : hh = 0 := by omega
      subst this
      rw [m.zeroH l t w h1]; rfl

theorem pushKeep_ok {dyn : Bool} {a : Arr} (x : Rect) (h : a.Ok) (hr : dyn = true ∨ a.live.length < a.cap) :
    ∃ b, (if x.width > 0 && x.height > 0 then push dyn a x else .ok a : C Arr) = .ok b ∧ b.live = a.live ++ keep x ∧ b.Ok ∧ (dyn = false → b.cap = a.cap) ∧
      a.cap ≤ b.cap := by
  unfold keep
  by_cases hx : x.width > 0 ∧ x.height > 0
  · rw [if_pos hx, if_pos (by simpa using hx)]
    exact push_ok x h hr
  · rw [if_neg hx, if_neg (by simpa using hx)]
    exact ⟨a, rfl, by simp, h, fun _ => rfl, Nat.le_refl _⟩

theorem splitFree_ok {dyn : Bool} {a : Arr} {f r : Rect} (s : Split) (hf : Small f) (hr : Pos r) (h1 : r.left = f.left) (h2 : r.top = f.top)
    (h4 : r.width ≤ f.width) (h5 : r.height ≤ f.height) (hx : 0 ≤ f.left ∧ f.left + f.width ≤ 2147483647)
    (hy : 0 ≤ f.top ∧ f.top + f.height ≤ 2147483647) (ha : a.Ok) (hroom : dyn = true ∨ a.live.length + 2 ≤ a.cap) :
    ∃ b hz, splitFree dyn a f r s = .ok b ∧ b.live = a.live ++ (keep (parts hz f r).1 ++ keep (parts hz f r).2) ∧ b.Ok ∧
      (dyn = false → b.cap = a.cap) ∧ a.cap ≤ b.cap ∧ splitHorizontal s f r (f.width - r.width) (f.height - r.height) = .ok hz := by
  have ⟨p, pw, ph, pa⟩ := hf
  obtain ⟨q1, q2⟩ := hr
  obtain ⟨hz, ehz⟩ := splitHorizontal_ok s hf ⟨q1, q2⟩ h4 h5
  obtain ⟨b, e1, e2, e3, e4, e5⟩ := pushKeep_ok (dyn := dyn) (parts hz f r).1 ha (by
    rcases hroom with h | h
    · exact .inl h
    · right; omega)
  obtain ⟨c, f1, f2, f3, f4, f5⟩ := pushKeep_ok (dyn := dyn) (a := b) (parts hz f r).2 e3 (by
    rcases hroom with h | h
    · exact .inl h
    · cases dyn with
      | true => exact .inl rfl
      | false =>
        right
        rw [e4 rfl, e2, List.length_append]
        have : (keep (parts hz f r).1).length ≤ 1 := by unfold keep; split <;> simp
        omega)
  refine ⟨c, hz, ?_, ?_, f3, fun h => (f4 h).trans (e4 h), Nat.le_trans e5 f5, ehz⟩
  · unfold splitFree
    rw [i32_ok (by omega) (by omega), ok_bind, i32_ok (by omega) (by omega), ok_bind, ehz, ok_bind, i32_ok (by omega) (by omega), ok_bind,
      i32_ok (by omega) (by omega), ok_bind]
    unfold parts at e1 f1
    dsimp only at e1 f1 ⊢
    have key : ∀ (B : Rect) (k : Arr → C Arr), (if B.width > 0 && B.height > 0 then push dyn a B else .ok a : C Arr) = .ok b →
        k b = .ok c → (if B.width > 0 && B.height > 0 then (push dyn a B >>= k) else (Except.ok a >>= k) : C Arr) = .ok c := by
      intro B k e1 e2
      split at e1
      · rename_i hc
        rw [if_pos hc, e1, ok_bind, e2]
      · rename_i hc
        injection e1 with e1
        rw [if_neg hc, ok_bind, e1, e2]
    refine key (parts hz f r).1 _ e1 ?_
    exact f1
  · rw [f2, e2, List.append_assoc]

theorem length_keep (r : Rect) : (keep r).length ≤ 1 := by unfold keep; split <;> simp

theorem pos_keep (r : Rect) : ∀ s ∈ keep r, Pos s := by
  unfold keep
  split
  · rename_i h
    intro s hs
    rw [List.mem_singleton] at hs
    subst hs
    exact h
  · simp

/-! ### Insertion -/

/-- There is memory for this many more insertions. -/
def Room (n : Nat) (p : Pack) : Prop := p.dyn = true ∨ (p.used.live.length + n ≤ p.used.cap ∧ p.used.live.length + n + 1 ≤ p.free.cap)

/-- What an insertion does. -/
structure Inserted (w h : Int) (flip : Bool) (p p' : Pack) (res : Placed) : Prop where
  placed : res.placed = true
  used : p'.used.live = p.used.live ++ [res.rect]
  size : Sized flip w h res
  dims : p'.width = p.width ∧ p'.height = p.height
  dyn : p'.dyn = p.dyn
  capF : p.dyn = false → p'.free.cap = p.free.cap
  capU : p.dyn = false → p'.used.cap = p.used.cap

/-- The free rectangle `f` is replaced by what is left over. -/
def SplitUp (s : Split) (f : Rect) (p : Pack) (r : Rect) (p' : Pack) : Prop :=
  (r.width ≤ f.width ∧ r.height ≤ f.height) ∧ ∃ hz rest, splitHorizontal s f r (f.width - r.width) (f.height - r.height) = .ok hz ∧
    (f :: rest).Perm p.free.live ∧ p'.free.live = rest ++ (keep (parts hz f r).1 ++ keep (parts hz f r).2)

theorem mem_of_getElem? {l : List Rect} {i : Nat} {r : Rect} (h : l[i]? = some r) : r ∈ l := by
  obtain ⟨hi, rfl⟩ := List.getElem?_eq_some_iff.mp h
  exact List.getElem_mem hi

theorem insert_ok {W H w h : Int} {flip : Bool} {p : Pack} (hp : Inv W H p) (hw : 1 ≤ w) (hh : 1 ≤ h) {c : Choice} {f : Rect}
    (hc : c.score ≠ intMax) (hix : p.free.live[c.index]? = some f) (hsu : Suits flip w h c f) (hroom : Room 1 p) (s : Split) :
    ∃ p' res, insert p w h c s = .ok (p', res) ∧ Inv W H p' ∧ Inserted w h flip p p' res ∧ res.flipped = c.flipped ∧
      res.rect.left = f.left ∧ res.rect.top = f.top ∧ SplitUp s f p res.rect p' := by
  have hmem := mem_of_getElem? hix
  have hsm := hp.tiles.small hp.size (.inl hmem)
  have hin := hp.tiles.inside (.inl hmem)
  have hwle := hp.size.wle
  have hhle := hp.size.hle
  obtain ⟨r, er, rl, rt, rfit, rpos, rsize⟩ : ∃ r : Rect, rectAt p w h c.index c.flipped = .ok r ∧ r.left = f.left ∧ r.top = f.top ∧
      (r.width ≤ f.width ∧ r.height ≤ f.height) ∧ Pos r ∧
      (if c.flipped then flip = true ∧ r.width = h ∧ r.height = w else r.width = w ∧ r.height = h) := by
    unfold rectAt
    rw [entry_ok hix, ok_bind]
    refine ⟨_, rfl, ?_⟩
    unfold Suits at hsu
    cases hfl : c.flipped with
    | true =>
      rw [hfl] at hsu
      exact ⟨rfl, rfl, hsu.2, ⟨by show 0 < h; omega, by show 0 < w; omega⟩, hsu.1, rfl, rfl⟩
    | false =>
      rw [hfl] at hsu
      exact ⟨rfl, rfl, hsu, ⟨by show 0 < w; omega, by show 0 < h; omega⟩, rfl, rfl⟩
  obtain ⟨a, ea, ep, eok, ecap, _⟩ := erase_ok hp.okF hix
  have elen : p.free.live.length = a.live.length + 1 := by rw [← ep.length_eq]; rfl
  unfold Inside at hin
  obtain ⟨b, hz, eb, eblive, ebok, ebcap, ebcap', ehz⟩ := splitFree_ok (dyn := p.dyn) (a := a) s hsm rpos rl rt rfit.1 rfit.2 (by omega) (by omega) eok (by
    rcases hroom with h | h
    · exact .inl h
    · right; have := hp.count; omega)
  have sm : ∀ g, Meas g → tot g b.live + g r = tot g p.free.live := by
    intro g m
    rw [eblive, tot_append, tot_append, tot_keep m, tot_keep m, ← tot_perm g ep, tot_cons, parts_meas m hz f r rl rt rpos rfit.1 rfit.2]
    · omega
    · unfold parts; dsimp only; omega
    · unfold parts; dsimp only; have := rpos.2; have := hsm.pos.2; split <;> omega
    · unfold parts; dsimp only; have := rpos.1; have := hsm.pos.1; split <;> omega
    · unfold parts; dsimp only; omega
  have htiles : Tiles W H b.live (p.used.live ++ [r]) := by
    refine ⟨?_, ?_, ?_⟩
    · intro x hx
      rw [eblive] at hx
      rcases List.mem_append.mp hx with hx | hx
      · exact hp.tiles.posF x (ep.mem_iff.mp (by simp [hx]))
      · rcases List.mem_append.mp hx with hx | hx
        · exact pos_keep _ x hx
        · exact pos_keep _ x hx
    · intro x hx
      rcases List.mem_append.mp hx with hx | hx
      · exact hp.tiles.posU x hx
      · rw [List.mem_singleton] at hx
        subst hx
        exact rpos
    · intro g m
      rw [tot_append, tot_cons, tot_nil]
      have h1 := sm g m
      have h2 := hp.tiles.tile g m
      omega
  have hrsm := htiles.small hp.size (r := r) (.inr (by simp))
  have htot : tot area (p.used.live ++ [r]) ≤ 2147483647 := by
    have h1 := htiles.tile area meas_area
    have h2 := tot_nonneg meas_area htiles.posF
    have h3 := hp.size.a
    have h4 : area ⟨0, 0, W, H⟩ = W * H := rfl
    omega
  have htot0 := tot_nonneg meas_area htiles.posU
  have hrp : 0 < r.width * r.height := Int.mul_pos rpos.1 rpos.2
  have etot : tot area (p.used.live ++ [r]) = p.usedArea + r.width * r.height := by
    rw [tot_append, tot_cons, tot_nil, hp.area]
    show _ + (r.width * r.height + 0) = _
    omega
  obtain ⟨u, eu, eulive, euok, eucap, _⟩ := push_ok (dyn := p.dyn) r hp.okU (by
    rcases hroom with h | h
    · exact .inl h
    · exact .inr (by omega))
  refine ⟨{ p with free := b, used := u, usedArea := p.usedArea + r.width * r.height }, ⟨r, c.flipped, true⟩, ?_, ?_, ?_, rfl, rl, rt,
    rfit, hz, a.live, ehz, ep, eblive⟩
  · unfold insert
    rw [show assert (decide (c.score ≠ intMax)) = .ok () from by unfold assert; rw [if_pos (decide_eq_true hc)], ok_bind, er, ok_bind,
      entry_ok hix, ok_bind, ea, ok_bind, eb, ok_bind]
    unfold note
    dsimp only
    rw [eu, ok_bind, i32_ok (by omega) hrsm.a, ok_bind, i32_ok (by omega) (by omega), ok_bind, ok_bind]
  · refine ⟨hp.size, ?_, ?_, ebok, euok, ?_, ?_⟩
    · show Tiles W H b.live u.live
      rw [eulive]; exact htiles
    · show p.usedArea + r.width * r.height = tot area u.live
      rw [eulive, etot]
    · show b.live.length ≤ u.live.length + 1
      rw [eblive, eulive]
      simp only [List.length_append, List.length_singleton]
      have := length_keep (parts hz f r).1
      have := length_keep (parts hz f r).2
      have := hp.count
      omega
    · have := hp.cap
      show b.cap ≠ 0
      omega
  · exact ⟨rfl, eulive, rsize, ⟨rfl, rfl⟩, rfl, fun h => (ebcap h).trans ecap, fun h => eucap h⟩

/-! ### What the choice means for an insertion -/

theorem Found.cases {fit : Fit} {flip : Bool} {w h : Int} {all : List Rect} {c : Choice} (hf : Found fit flip w h all c) :
    (c.score = intMax ∧ ∀ r ∈ all, ¬ RoomIn flip w h r) ∨
    (c.score ≠ intMax ∧ ∃ r, all[c.index]? = some r ∧ Suits flip w h c r) := by
  cases hf with
  | best hb =>
    cases hb with
    | none h1 h2 => exact .inl ⟨h1, h2⟩
    | some r h1 h2 h3 h4 => exact .inr ⟨by omega, r, h1, h2⟩
  | exact r h1 h2 h3 =>
    refine .inr ⟨by rw [h2]; decide, r, h1, ?_⟩
    unfold Suits
    split
    · rename_i hfl
      rw [if_pos hfl] at h3
      exact ⟨h3.1, Int.le_of_eq h3.2.1, Int.le_of_eq h3.2.2⟩
    · rename_i hfl
      rw [if_neg hfl] at h3
      exact ⟨Int.le_of_eq h3.1, Int.le_of_eq h3.2⟩

theorem Inv.small {W H : Int} {p : Pack} (hp : Inv W H p) : ∀ r ∈ p.free.live, Small r := fun _ hr => hp.tiles.small hp.size (.inl hr)

theorem insertChoice_ok {W H w h : Int} {p : Pack} (hp : Inv W H p) (hw : 1 ≤ w) (hh : 1 ≤ h) (fit : Fit) (s : Split) (flip : Bool) (hroom : Room 1 p) :
    ∃ p' res, insertChoice p w h fit s flip = .ok (p', res) ∧ Inv W H p' ∧
      ((p' = p ∧ res = notPlaced ∧ ∀ r ∈ p.free.live, ¬ RoomIn flip w h r) ∨
        (Inserted w h flip p p' res ∧ ∃ c f, Found fit flip w h p.free.live c ∧ p.free.live[c.index]? = some f ∧ Suits flip w h c f ∧
          res.flipped = c.flipped ∧ res.rect.left = f.left ∧ res.rect.top = f.top ∧ SplitUp s f p res.rect p')) := by
  obtain ⟨c, ec, hf⟩ := choice_found p hw hh fit flip hp.small
  unfold insertChoice
  rw [ec, ok_bind]
  rcases hf.cases with ⟨h1, h2⟩ | ⟨h1, f, h2, h3⟩
  · rw [if_neg (by simp [h1])]
    exact ⟨p, notPlaced, rfl, hp, .inl ⟨rfl, rfl, h2⟩⟩
  · rw [if_pos h1]
    obtain ⟨p', res, e1, e2, e3, e4, e5, e6, e7⟩ := insert_ok hp hw hh h1 h2 h3 hroom s
    exact ⟨p', res, e1, e2, .inr ⟨e3, c, f, hf, h2, h3, e4, e5, e6, e7⟩⟩

/-! ### Merging -/

theorem join_ok {W H : Int} {arr : Arr} {used : List Rect} (ht : Tiles W H arr.live used) (hok : arr.Ok) {i j : Nat} {a b m : Rect}
    (hij : i ≠ j) (ha : arr.live[i]? = some a) (hb : arr.live[j]? = some b) (hm : ∀ g, Meas g → g m = g a + g b) (hpos : Pos m) :
    ∃ arr', erase { arr with live := arr.live.set i m } j = .ok arr' ∧ Tiles W H arr'.live used ∧ arr'.Ok ∧ arr'.cap = arr.cap ∧
      arr'.live.length + 1 = arr.live.length := by
  have hb' : (arr.live.set i m)[j]? = some b := by rw [List.getElem?_set_ne hij]; exact hb
  obtain ⟨arr', e1, e2, e3, e4, _⟩ := erase_ok (a := { arr with live := arr.live.set i m }) (i := j) (r := b)
    (by unfold Arr.Ok at *; dsimp only; rw [List.length_set]; exact hok) hb'
  refine ⟨arr', e1, ⟨?_, ht.posU, ?_⟩, e3, e4, ?_⟩
  · intro r hr
    have : r ∈ arr.live.set i m := e2.mem_iff.mp (List.mem_cons_of_mem _ hr)
    rcases List.mem_or_eq_of_mem_set this with h | h
    · exact ht.posF r h
    · rw [h]; exact hpos
  · intro g mg
    have h1 := tot_perm g e2
    rw [tot_cons] at h1
    dsimp only at h1
    rw [tot_set g _ _ a m ha] at h1
    have h2 := hm g mg
    have h3 := ht.tile g mg
    omega
  · have := e2.length_eq
    simp only [List.length_cons, List.length_set] at this
    exact this

/-- The rectangles have a whole edge in common. -/
def Edge (a b : Rect) : Prop :=
  (a.left = b.left ∧ a.width = b.width ∧ (a.top = b.top + b.height ∨ a.top + a.height = b.top)) ∨
  (a.top = b.top ∧ a.height = b.height ∧ (a.left = b.left + b.width ∨ a.left + a.width = b.left))

/-- What joining the rectangle `i` with those from `j` on does. -/
def MergedFrom (i j : Nat) (arr arr' : Arr) : Prop :=
  (arr' = arr ∧ ∀ a k b, arr.live[i]? = some a → j ≤ k → arr.live[k]? = some b → ¬ Edge a b) ∨
  (arr'.live.length < arr.live.length ∧ ∃ a k b, arr.live[i]? = some a ∧ j ≤ k ∧ arr.live[k]? = some b ∧ Edge a b)

theorem MergedFrom.le {i j : Nat} {arr arr' : Arr} (h : MergedFrom i j arr arr') : arr'.live.length ≤ arr.live.length := by
  rcases h with ⟨rfl, _⟩ | ⟨h, _⟩ <;> omega

/-- What joining the rectangles from `i` on does. -/
def MergedAll (i : Nat) (arr arr' : Arr) : Prop :=
  (arr' = arr ∧ ∀ k l a b, i ≤ k → k < l → arr.live[k]? = some a → arr.live[l]? = some b → ¬ Edge a b) ∨
  (arr'.live.length < arr.live.length ∧ ∃ k l a b, i ≤ k ∧ k < l ∧ arr.live[k]? = some a ∧ arr.live[l]? = some b ∧ Edge a b)

theorem MergedAll.le {i : Nat} {arr arr' : Arr} (h : MergedAll i arr arr') : arr'.live.length ≤ arr.live.length := by
  rcases h with ⟨rfl, _⟩ | ⟨h, _⟩ <;> omega

theorem mergeFrom_ok {W H : Int} (hs : Size W H) {used : List Rect} : ∀ (fuel : Nat) (arr : Arr) (i j : Nat), i < j →
    Tiles W H arr.live used → arr.Ok → arr.live.length - j < fuel →
    ∃ arr', mergeFrom fuel arr i j = .ok arr' ∧ Tiles W H arr'.live used ∧ arr'.Ok ∧ arr'.cap = arr.cap ∧ MergedFrom i j arr arr' := by
  intro fuel
  induction fuel with
  | zero => intro arr i j _ _ _ h; omega
  | succ fuel ih =>
    intro arr i j hij ht hok hfuel
    unfold mergeFrom
    split
    swap
    · rename_i hj
      refine ⟨arr, rfl, ht, hok, rfl, .inl ⟨rfl, fun a k b _ hk hb => ?_⟩⟩
      obtain ⟨hk', _⟩ := List.getElem?_eq_some_iff.mp hb
      omega
    rename_i hj
    obtain ⟨a, ha⟩ : ∃ a, arr.live[i]? = some a := ⟨_, List.getElem?_eq_getElem (by omega)⟩
    obtain ⟨b, hb⟩ : ∃ b, arr.live[j]? = some b := ⟨_, List.getElem?_eq_getElem hj⟩
    rw [entry_ok ha, ok_bind, entry_ok hb, ok_bind]
    have hia := ht.inside (.inl (mem_of_getElem? ha))
    have hib := ht.inside (.inl (mem_of_getElem? hb))
    have hpa := ht.pos (.inl (mem_of_getElem? ha))
    have hpb := ht.pos (.inl (mem_of_getElem? hb))
    have hwle := hs.wle
    have hhle := hs.hle
    unfold Inside at hia hib
    unfold Pos at hpa hpb
    have hnext : ¬ Edge a b → ∃ arr', mergeFrom fuel arr i (j + 1) = .ok arr' ∧ Tiles W H arr'.live used ∧ arr'.Ok ∧ arr'.cap = arr.cap ∧
        MergedFrom i j arr arr' := by
      intro hne
      obtain ⟨arr', e1, e2, e3, e4, e5⟩ := ih arr i (j + 1) (by omega) ht hok (by omega)
      refine ⟨arr', e1, e2, e3, e4, ?_⟩
      rcases e5 with ⟨h1, h2⟩ | ⟨h1, a', k, b', h2, h3, h4, h5⟩
      swap
      · exact .inr ⟨h1, a', k, b', h2, by omega, h4, h5⟩
      refine .inl ⟨h1, fun a' k b' ha' hk hb' => ?_⟩
      by_cases hkj : k = j
      · subst hkj
        rw [ha] at ha'
        rw [hb] at hb'
        injection ha' with ha'
        injection hb' with hb'
        rw [← ha', ← hb']
        exact hne
      · exact h2 a' k b' ha' (by omega) hb'
    have hjoin : ∀ m : Rect, (∀ g, Meas g → g m = g a + g b) → Pos m → Edge a b →
        ∃ arr', ((erase { arr with live := arr.live.set i m } j) >>= fun arr => mergeFrom fuel arr i j) = .ok arr' ∧ Tiles W H arr'.live used ∧
          arr'.Ok ∧ arr'.cap = arr.cap ∧ MergedFrom i j arr arr' := by
      intro m hm hpos hE
      obtain ⟨arr', e1, e2, e3, e4, e5⟩ := join_ok ht hok (by omega) ha hb hm hpos
      rw [e1, ok_bind]
      obtain ⟨arr'', f1, f2, f3, f4, f5⟩ := ih arr' i j hij e2 e3 (by omega)
      have := f5.le
      exact ⟨arr'', f1, f2, f3, f4.trans e4, .inr ⟨by omega, a, j, b, ha, Nat.le_refl _, hb, hE⟩⟩
    dsimp only
    obtain ⟨al, at', aw, ah⟩ := a
    obtain ⟨bl, bt, bw, bh⟩ := b
    dsimp only at *
    split
    · rename_i hc
      simp only [Bool.and_eq_true, decide_eq_true_eq] at hc
      obtain ⟨rfl, rfl⟩ := hc
      rw [i32_ok (by omega) (by omega), ok_bind]
      split
      · rename_i he
        rw [i32_ok (by omega) (by omega), ok_bind, i32_ok (by omega) (by omega), ok_bind]
        refine hjoin _ (fun g mg => ?_) ⟨by dsimp only; omega, by dsimp only; omega⟩ (by unfold Edge; dsimp only; omega)
        have h1 := mg.vert al bt aw bh ah (by omega) (by omega) (by omega)
        rw [show at' - bh = bt from by omega, show ah + bh = bh + ah from by omega, h1, he]
        omega
      · rw [i32_ok (by omega) (by omega), ok_bind]
        split
        · rename_i he
          rw [i32_ok (by omega) (by omega), ok_bind]
          refine hjoin _ (fun g mg => ?_) ⟨by dsimp only; omega, by dsimp only; omega⟩ (by unfold Edge; dsimp only; omega)
          have h1 := mg.vert al at' aw ah bh (by omega) (by omega) (by omega)
          rw [h1, he]
        · exact hnext (by unfold Edge; dsimp only; omega)
    · rename_i hne1
      simp only [Bool.and_eq_true, decide_eq_true_eq] at hne1
      split
      · rename_i hc
        simp only [Bool.and_eq_true, decide_eq_true_eq] at hc
        obtain ⟨rfl, rfl⟩ := hc
        rw [i32_ok (by omega) (by omega), ok_bind]
        split
        · rename_i he
          rw [i32_ok (by omega) (by omega), ok_bind, i32_ok (by omega) (by omega), ok_bind]
          refine hjoin _ (fun g mg => ?_) ⟨by dsimp only; omega, by dsimp only; omega⟩ (by unfold Edge; dsimp only; omega)
          have h1 := mg.horiz bl at' bw aw ah (by omega) (by omega) (by omega)
          rw [show al - bw = bl from by omega, show aw + bw = bw + aw from by omega, h1, he]
          omega
        · rw [i32_ok (by omega) (by omega), ok_bind]
          split
          · rename_i he
            rw [i32_ok (by omega) (by omega), ok_bind]
            refine hjoin _ (fun g mg => ?_) ⟨by dsimp only; omega, by dsimp only; omega⟩ (by unfold Edge; dsimp only; omega)
            have h1 := mg.horiz al at' aw bw ah (by omega) (by omega) (by omega)
            rw [h1, he]
          · exact hnext (by unfold Edge; dsimp only; omega)
      · rename_i hne2
        simp only [Bool.and_eq_true, decide_eq_true_eq] at hne2
        exact hnext (by unfold Edge; dsimp only; omega)

theorem mergeLoop_ok {W H : Int} (hs : Size W H) {used : List Rect} : ∀ (fuel : Nat) (arr : Arr) (i : Nat),
    Tiles W H arr.live used → arr.Ok → arr.live.length - i < fuel →
    ∃ arr', mergeLoop fuel arr i = .ok arr' ∧ Tiles W H arr'.live used ∧ arr'.Ok ∧ arr'.cap = arr.cap ∧ MergedAll i arr arr' := by
  intro fuel
  induction fuel with
  | zero => intro arr i _ _ h; omega
  | succ fuel ih =>
    intro arr i ht hok hfuel
    unfold mergeLoop
    split
    · obtain ⟨arr', e1, e2, e3, e4, e5⟩ := mergeFrom_ok hs (arr.live.length + 1) arr i (i + 1) (by omega) ht hok (by omega)
      rw [e1, ok_bind]
      have hle := e5.le
      obtain ⟨arr'', f1, f2, f3, f4, f5⟩ := ih arr' (i + 1) e2 e3 (by omega)
      refine ⟨arr'', f1, f2, f3, f4.trans e4, ?_⟩
      have hle' := f5.le
      rcases e5 with ⟨rfl, h2⟩ | ⟨h1, a, k, b, h2, h3, h4, h5⟩
      swap
      · exact .inr ⟨by omega, i, k, a, b, Nat.le_refl _, by omega, h2, h4, h5⟩
      rcases f5 with ⟨rfl, h4⟩ | ⟨h3, k, l, a, b, h4, h5, h6⟩
      swap
      · exact .inr ⟨h3, k, l, a, b, by omega, h5, h6⟩
      refine .inl ⟨rfl, fun k l a b hik hkl hk hl => ?_⟩
      by_cases hki : k = i
      · subst hki
        exact h2 a l b hk (by omega) hl
      · exact h4 k l a b (by omega) hkl hk hl
    · rename_i hi
      refine ⟨arr, rfl, ht, hok, rfl, .inl ⟨rfl, fun k l a b hik hkl hk hl => ?_⟩⟩
      obtain ⟨hk', _⟩ := List.getElem?_eq_some_iff.mp hk
      omega

theorem merge_ok' {W H : Int} {p : Pack} (hp : Inv W H p) :
    ∃ p', merge p = .ok p' ∧ Inv W H p' ∧ p'.used = p.used ∧ p'.dyn = p.dyn ∧ p'.free.cap = p.free.cap ∧
      p'.width = p.width ∧ p'.height = p.height ∧ MergedAll 0 p.free p'.free ∧ (p'.free = p.free → p' = p) := by
  obtain ⟨a, e1, e2, e3, e4, e5⟩ := mergeLoop_ok hp.size (p.free.live.length + 1) p.free 0 hp.tiles hp.okF (by omega)
  unfold merge
  rw [e1, ok_bind]
  refine ⟨_, rfl, ⟨hp.size, e2, hp.area, e3, hp.okU, ?_, ?_⟩, rfl, rfl, e4, rfl, rfl, e5, fun h => ?_⟩
  · have := hp.count
    have := e5.le
    dsimp only
    omega
  · dsimp only
    rw [e4]
    exact hp.cap
  · dsimp only at h
    rw [h]

theorem merge_ok {W H : Int} {p : Pack} (hp : Inv W H p) :
    ∃ p', merge p = .ok p' ∧ Inv W H p' ∧ p'.used = p.used ∧ p'.dyn = p.dyn ∧ p'.free.cap = p.free.cap ∧
      p'.width = p.width ∧ p'.height = p.height := by
  obtain ⟨p', h1, h2, h3, h4, h5, h6, h7, _⟩ := merge_ok' hp
  exact ⟨p', h1, h2, h3, h4, h5, h6, h7⟩

/-! ### Clearing -/

theorem reset_ok {p : Pack} (hc : p.free.cap ≠ 0) {W H : Int} (hs : Size W H) :
    Inv W H (reset p W H) ∧ (reset p W H).used.live = [] ∧ (reset p W H).free.live = [⟨0, 0, W, H⟩] ∧ (reset p W H).dyn = p.dyn ∧
      (reset p W H).free.cap = p.free.cap ∧ (reset p W H).used.cap = p.used.cap := by
  have hfree : (reset p W H).free = { p.free with live := [⟨0, 0, W, H⟩], stale := (p.free.live ++ p.free.stale).drop 1 } := by
    unfold reset
    dsimp only
    rw [if_pos hc]
  have hused : (reset p W H).used = { p.used with live := [], stale := p.used.live ++ p.used.stale } := rfl
  refine ⟨⟨hs, ?_, ?_, ?_, ?_, ?_, ?_⟩, rfl, by rw [hfree], rfl, by rw [hfree], rfl⟩
  · rw [hfree, hused]
    dsimp only
    refine ⟨?_, by simp, ?_⟩
    · intro r hr
      rw [List.mem_singleton] at hr
      subst hr
      have := hs.w
      have := hs.h
      exact ⟨by dsimp only; omega, by dsimp only; omega⟩
    · intro f _
      simp [tot]
  · rfl
  · rw [hfree]
    show 1 ≤ p.free.cap
    omega
  · exact Nat.zero_le _
  · rw [hfree, hused]
    exact Nat.le_refl _
  · rw [hfree]
    exact hc

theorem create_ok {dyn : Bool} {W H : Int} (hs : Size W H) {fc uc : Nat} (h : dyn = true ∨ 1 ≤ fc) :
    ∃ p, create dyn W H fc uc = .ok p ∧ Inv W H p ∧ p.used.live = [] ∧ p.free.live = [⟨0, 0, W, H⟩] ∧ p.dyn = dyn ∧
      (dyn = false → p.free.cap = fc) ∧ p.used.cap = uc ∧ p.width = W ∧ p.height = H := by
  obtain ⟨a, e1, e2, e3, e4, _⟩ := push_ok (dyn := dyn) (a := ⟨[], [], fc, 0⟩) ⟨0, 0, W, H⟩ (Nat.zero_le _) h
  have e2' : a.live = [⟨0, 0, W, H⟩] := e2
  unfold create
  rw [e1, ok_bind]
  refine ⟨_, rfl, ⟨hs, ?_, rfl, e3, Nat.zero_le _, ?_, ?_⟩, rfl, e2, rfl, e4, rfl, rfl, rfl⟩
  · dsimp only
    rw [e2']
    refine ⟨?_, by simp, ?_⟩
    · intro r hr
      rw [List.mem_singleton] at hr
      subst hr
      have := hs.w
      have := hs.h
      exact ⟨by dsimp only; omega, by dsimp only; omega⟩
    · intro f _
      simp [tot]
  · dsimp only
    rw [e2']
    exact Nat.le_refl _
  · dsimp only
    unfold Arr.Ok at e3
    rw [e2'] at e3
    simp at e3
    omega

end Tm.Pack
