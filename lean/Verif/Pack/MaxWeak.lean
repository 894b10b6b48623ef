import Verif.Pack.MaxInv

/-! # MaxRects: what holds even after a free rectangle was filled exactly -/

namespace Tm.Pack

open Tm

/-- All entries, also those behind the end, satisfy `P`. -/
def AllGood (P : Rect → Prop) (a : Arr) : Prop := ∀ x, x ∈ a.live ∨ x ∈ a.stale → P x

theorem push_good {P : Rect → Prop} {dyn : Bool} {a b : Arr} {x : Rect} (h : push dyn a x = .ok b) (ha : AllGood P a) (hx : P x) : AllGood P b := by
  unfold push at h
  split at h
  · split at h
    · injection h with h
      subst h
      intro y hy
      dsimp only at hy
      simp only [List.mem_append, List.mem_singleton, List.not_mem_nil, or_false] at hy
      rcases hy with hy | rfl
      · exact ha y (.inl hy)
      · exact hx
    · cases h
  · injection h with h
    subst h
    intro y hy
    dsimp only at hy
    simp only [List.mem_append, List.mem_singleton] at hy
    rcases hy with (hy | rfl) | hy
    · exact ha y (.inl hy)
    · exact hx
    · exact ha y (.inr (List.mem_of_mem_drop hy))

theorem pushAll_good {P : Rect → Prop} {dyn : Bool} : ∀ (xs : List Rect) (a b : Arr), pushAll dyn a xs = .ok b → AllGood P a → (∀ x ∈ xs, P x) → AllGood P b
  | [], a, b, h, ha, _ => by
    injection h with h
    subst h
    exact ha
  | x :: xs, a, b, h, ha, hx => by
    unfold pushAll at h
    obtain ⟨c, e1, h⟩ := ok_of_bind h
    exact pushAll_good xs c b h (push_good e1 ha (hx x (by simp))) fun y hy => hx y (by simp [hy])

theorem erase_good {P : Rect → Prop} {a b : Arr} {i : Nat} (h : erase a i = .ok b) (ha : AllGood P a) : AllGood P b := by
  unfold erase at h
  obtain ⟨_, _, h⟩ := ok_of_bind h
  obtain ⟨_, _, h⟩ := ok_of_bind h
  cases hl : a.live.getLast? with
  | none =>
    rw [hl] at h
    cases h
  | some last =>
    rw [hl] at h
    injection h with h
    subst h
    have hlast : P last := ha last (.inl (List.mem_of_getLast? hl))
    intro y hy
    dsimp only at hy
    rcases hy with hy | hy
    · rcases List.mem_or_eq_of_mem_set hy with hy | rfl
      · exact ha y (.inl (List.dropLast_subset _ hy))
      · exact hlast
    · rcases List.mem_cons.mp hy with rfl | hy
      · exact hlast
      · exact ha y (.inr hy)

theorem entry_good {P : Rect → Prop} {a : Arr} {i : Nat} {r : Rect} (h : entry a i = .ok r) (ha : AllGood P a) : P r := by
  unfold entry at h
  split at h
  · rename_i s hs
    injection h with h
    subst h
    exact ha s (List.mem_append.mp (List.mem_of_getElem? hs))
  · cases h

/-- Positive sides, and in the bin. -/
def Good (W H : Int) (r : Rect) : Prop := Pos r ∧ Inside W H r

theorem splitLoop_good {W H : Int} (hd : Dims W H) {dyn : Bool} {u : Rect} {blk : Nat} (hu : Good W H u) : ∀ (n i : Nat) (a a' : Arr),
    splitLoop dyn u blk n i a = .ok a' → AllGood (Good W H) a → a.Ok → AllGood (Good W H) a' ∧ a'.Ok ∧ a.cap ≤ a'.cap := by
  intro n
  induction n with
  | zero =>
    intro i a a' h ha hok
    injection h with h
    subst h
    exact ⟨ha, hok, Nat.le_refl _⟩
  | succ n ih =>
    intro i a a' h ha hok
    unfold splitLoop at h
    dsimp only at h
    have key : ∀ f, entry a i = .ok f → (splitNode dyn a f u >>= fun x => if x.1 then (erase x.2 i >>= fun a => splitLoop dyn u blk n (i + 1) a) else
        (Except.ok x.2 >>= fun a => splitLoop dyn u blk n (i + 1) a)) = .ok a' → AllGood (Good W H) a' ∧ a'.Ok ∧ a.cap ≤ a'.cap := by
      intro f hf hs
      have hfg := entry_good hf ha
      rw [splitNode_eq dyn a (ranged_of_inside hd hfg.1 hfg.2) (ranged_of_inside hd hu.1 hu.2)] at hs
      by_cases hc : clearOf u f = true
      · rw [if_pos hc, ok_bind] at hs
        dsimp only at hs
        rw [if_neg (by decide), ok_bind] at hs
        exact ih (i + 1) a a' hs ha hok
      · rw [if_neg hc] at hs
        obtain ⟨x, e1, hs⟩ := ok_of_bind hs
        obtain ⟨b, e2, e1⟩ := ok_of_bind e1
        injection e1 with e1
        subst e1
        dsimp only at hs
        rw [if_pos rfl] at hs
        obtain ⟨c, e3, hs⟩ := ok_of_bind hs
        have hb := pushAll_good _ _ _ e2 ha fun y hy => by
          obtain ⟨k1, k2, k3⟩ := pieces_good hfg.1 hu.1 (fun hap => hc ((clearOf_iff hu.1 hfg.1).mpr hap)) hy
          exact ⟨k1, inside_within hfg.2 k2⟩
        obtain ⟨_, l2, l3⟩ := pushAll_live _ _ _ e2
        obtain ⟨_, _, _, _, m1, m2, _⟩ := erase_form e3
        obtain ⟨n1, n2, n3⟩ := ih (i + 1) c a' hs (erase_good e3 hb) (m1 (l2 hok))
        exact ⟨n1, n2, by omega⟩
    by_cases hblk : a.block = blk
    · rw [if_pos hblk] at h
      obtain ⟨f, e1, h⟩ := ok_of_bind h
      exact key f e1 h
    · rw [if_neg hblk] at h
      cases h

theorem pruneFrom_good {P : Rect → Prop} : ∀ (fuel : Nat) (arr : Arr) (i j : Nat) (b : Bool) (arr' : Arr), pruneFrom fuel arr i j = .ok (b, arr') →
    AllGood P arr → AllGood P arr' := by
  intro fuel
  induction fuel with
  | zero => intro arr i j b arr' h; cases h
  | succ fuel ih =>
    intro arr i j b arr' h ha
    unfold pruneFrom at h
    by_cases hj : j < arr.live.length
    · rw [if_pos hj] at h
      obtain ⟨x, _, h⟩ := ok_of_bind h
      obtain ⟨y, _, h⟩ := ok_of_bind h
      obtain ⟨t, _, h⟩ := ok_of_bind h
      cases t with
      | true =>
        rw [if_pos rfl] at h
        obtain ⟨z, e, h⟩ := ok_of_bind h
        injection h with h
        injection h with h1 h2
        subst h2
        exact erase_good e ha
      | false =>
        rw [if_neg (by decide)] at h
        obtain ⟨t, _, h⟩ := ok_of_bind h
        cases t with
        | true =>
          rw [if_pos rfl] at h
          obtain ⟨z, e, h⟩ := ok_of_bind h
          exact ih _ _ _ _ _ h (erase_good e ha)
        | false =>
          rw [if_neg (by decide)] at h
          exact ih _ _ _ _ _ h ha
    · rw [if_neg hj] at h
      injection h with h
      injection h with h1 h2
      subst h2
      exact ha

theorem pruneLoop_good {P : Rect → Prop} : ∀ (fuel : Nat) (arr : Arr) (i : Nat) (arr' : Arr), pruneLoop fuel arr i = .ok arr' →
    AllGood P arr → AllGood P arr' := by
  intro fuel
  induction fuel with
  | zero => intro arr i arr' h; cases h
  | succ fuel ih =>
    intro arr i arr' h ha
    unfold pruneLoop at h
    by_cases hj : i < arr.live.length
    · rw [if_pos hj] at h
      obtain ⟨x, e, h⟩ := ok_of_bind h
      exact ih _ _ _ h (pruneFrom_good _ _ _ _ _ _ e ha)
    · rw [if_neg hj] at h
      injection h with h
      subst h
      exact ha

/-- The state of any pack that is used with the MaxRects functions. -/
structure WInv (W H : Int) (p : Pack) : Prop where
  dims : Dims W H
  width : p.width = W
  height : p.height = H
  free : AllGood (Good W H) p.free
  used : ∀ r ∈ p.used.live, Good W H r
  area : p.usedArea = areas p.used.live
  okF : p.free.Ok
  okU : p.used.Ok
  cap : p.free.cap ≠ 0

theorem WInv.ranged {W H : Int} {p : Pack} (hp : WInv W H p) : ∀ f ∈ p.free.live, Ranged f :=
  fun f hf => ranged_of_inside hp.dims (hp.free f (.inl hf)).1 (hp.free f (.inl hf)).2

theorem corner_fits {w h : Int} (hw : 1 ≤ w) (hh : 1 ≤ h) {f : Rect} {flip fl : Bool} (hsu : if fl then flip = true ∧ FitsIn h w f else FitsIn w h f) :
    Pos (atCorner f w h fl) ∧ Within (atCorner f w h fl) f := by
  unfold atCorner
  cases fl with
  | true =>
    have hsu' : flip = true ∧ FitsIn h w f := hsu
    unfold FitsIn at hsu'
    rw [if_pos rfl]
    refine ⟨⟨by dsimp only; omega, by dsimp only; omega⟩, ?_⟩
    unfold Within; dsimp only; omega
  | false =>
    have hsu' : FitsIn w h f := hsu
    unfold FitsIn at hsu'
    rw [if_neg (by decide)]
    refine ⟨⟨by dsimp only; omega, by dsimp only; omega⟩, ?_⟩
    unfold Within; dsimp only; omega

theorem mInsert_weak {W H w h : Int} {flip : Bool} {p p' : Pack} (hp : WInv W H p) (hw : 1 ≤ w) (hh : 1 ≤ h) {c : MChoice} {f : Rect} {res : Placed}
    (hix : p.free.live[c.index]? = some f) (hsu : if c.flipped then flip = true ∧ FitsIn h w f else FitsIn w h f)
    (hins : mInsert p w h c = .ok (p', res)) :
    WInv W H p' ∧ res = ⟨atCorner f w h c.flipped, c.flipped, true⟩ ∧ p'.used.live = p.used.live ++ [res.rect] := by
  have hmem := mem_of_getElem? hix
  unfold mInsert at hins
  obtain ⟨_, _, hins⟩ := ok_of_bind hins
  obtain ⟨u, eu, hins⟩ := ok_of_bind hins
  obtain ⟨a1, e1, hins⟩ := ok_of_bind hins
  obtain ⟨a2, e2, hins⟩ := ok_of_bind hins
  obtain ⟨p1, e3, hins⟩ := ok_of_bind hins
  injection hins with hins
  injection hins with h1 h2
  subst h1 h2
  have hu : u = atCorner f w h c.flipped := by
    unfold rectAt at eu
    rw [entry_ok hix, ok_bind] at eu
    injection eu with eu
    exact eu.symm
  have hug : Good W H u := by
    rw [hu]
    obtain ⟨k1, k2⟩ := corner_fits hw hh hsu
    exact ⟨k1, inside_within (hp.free f (.inl hmem)).2 k2⟩
  obtain ⟨s1, s2, s3⟩ := splitLoop_good hp.dims hug _ _ _ _ e1 hp.free hp.okF
  obtain ⟨a2', t1, t2, t3, t4, t5⟩ := pruneLoop_ok (a1.live.length + 1) a1 0 s2
    (fun x hx => ranged_of_inside hp.dims (s1 x (.inl hx)).1 (s1 x (.inl hx)).2) (by omega) (fun k _ _ _ hk => by omega)
  rw [e2] at t1
  injection t1 with t1
  subst t1
  unfold note at e3
  obtain ⟨used, e4, e3⟩ := ok_of_bind e3
  obtain ⟨ar, e5, e3⟩ := ok_of_bind e3
  obtain ⟨tot, e6, e3⟩ := ok_of_bind e3
  injection e3 with e3
  subst e3
  obtain ⟨v1, v2, _⟩ := push_live e4
  have h5 := (i32_eq e5).1
  have h6 := (i32_eq e6).1
  dsimp only at v1 v2 h6
  refine ⟨⟨hp.dims, hp.width, hp.height, pruneLoop_good _ _ _ _ e2 s1, ?_, ?_, t3, v2 hp.okU, ?_⟩, by rw [hu], v1⟩
  · dsimp only
    rw [v1]
    intro r hr
    rcases List.mem_append.mp hr with hr | hr
    · exact hp.used r hr
    · rw [List.mem_singleton] at hr
      subst hr
      exact hug
  · dsimp only
    rw [v1, areas_append, h6, h5, hp.area]
  · dsimp only
    rw [t4]
    have := hp.cap
    omega

/-- A choice that was found is the best place, and any other is not valid. -/
theorem mBestPlace_of {W H w h : Int} {fit : MFit} {flip : Bool} {p : Pack} (hp : WInv W H p) {c : MChoice} {f : Rect} {w' h' : Int}
    (hix : p.free.live[c.index]? = some f) (hsu : if c.flipped then flip = true ∧ FitsIn h w f else FitsIn w h f)
    (hle : ∀ r ∈ p.free.live, (FitsIn w' h' r → NotWorse (rank W H p.used.live fit (if c.flipped then h else w) (if c.flipped then w else h) f)
      (rank W H p.used.live fit w' h' r)) ∧ (flip = true → FitsIn h' w' r →
        NotWorse (rank W H p.used.live fit (if c.flipped then h else w) (if c.flipped then w else h) f) (rank W H p.used.live fit h' w' r))) :
    MBestPlace W H p.used.live fit flip p.free.live w' h' ⟨atCorner f w h c.flipped, c.flipped, true⟩ := by
  refine ⟨f, mem_of_getElem? hix, ?_⟩
  dsimp only
  have hwid : (atCorner f w h c.flipped).width = (if c.flipped then h else w) := by unfold atCorner; cases c.flipped <;> rfl
  have hhei : (atCorner f w h c.flipped).height = (if c.flipped then w else h) := by unfold atCorner; cases c.flipped <;> rfl
  rw [hwid, hhei]
  refine ⟨by unfold atCorner; cases c.flipped <;> rfl, by unfold atCorner; cases c.flipped <;> rfl, ?_, ?_, hle⟩
  · cases hfl : c.flipped with
    | true => rw [hfl] at hsu; exact hsu.2.1
    | false => rw [hfl] at hsu; exact hsu.1
  · cases hfl : c.flipped with
    | true => rw [hfl] at hsu; exact hsu.2.2
    | false => rw [hfl] at hsu; exact hsu.2

theorem valid_of {c : MChoice} (h : c.score0 < intMax ∨ c.score1 < intMax) : c.valid = true := by
  unfold MChoice.valid
  simp only [Bool.or_eq_true, decide_eq_true_eq, ne_eq]
  omega

theorem sized_corner {w h : Int} {f : Rect} {flip fl : Bool} (hsu : if fl then flip = true ∧ FitsIn h w f else FitsIn w h f) :
    Sized flip w h ⟨atCorner f w h fl, fl, true⟩ := by
  unfold Sized atCorner
  dsimp only
  cases fl with
  | true => exact ⟨hsu.1, rfl, rfl⟩
  | false => exact ⟨rfl, rfl⟩

theorem mInsertChoice_weak {W H w h : Int} {fit : MFit} {flip : Bool} {p p' : Pack} (hp : WInv W H p) (hw : 1 ≤ w) (hh : 1 ≤ h) {res : Placed}
    (hins : mInsertChoice p w h fit flip = .ok (p', res)) :
    WInv W H p' ∧ ((p' = p ∧ res = notPlaced ∧ ∀ r ∈ p.free.live, ¬ RoomIn flip w h r) ∨
      (p'.used.live = p.used.live ++ [res.rect] ∧ res.placed = true ∧ Sized flip w h res ∧
        MBestPlace W H p.used.live fit flip p.free.live w h res)) := by
  unfold mInsertChoice at hins
  obtain ⟨c, ec, hins⟩ := ok_of_bind hins
  have hb := mChoice_ok (fun r hr => (hp.used r hr).1) hw hh hp.ranged ec
  cases hb with
  | none he hno =>
    subst he
    rw [if_neg (by decide)] at hins
    injection hins with hins
    injection hins with h1 h2
    subst h1 h2
    refine ⟨hp, .inl ⟨rfl, rfl, fun r hr hroom => ?_⟩⟩
    rcases hroom with h | h
    · exact hno _ _ _ ⟨hr, h, .inl ⟨rfl, rfl⟩⟩
    · exact hno _ _ _ ⟨hr, h.2, .inr ⟨h.1, rfl, rfl⟩⟩
  | some f hix hsu hrank hvalid hle =>
    rw [if_pos (valid_of hvalid)] at hins
    obtain ⟨k1, k2, k3⟩ := mInsert_weak hp hw hh hix hsu hins
    refine ⟨k1, .inr ⟨k3, by rw [k2], ?_, ?_⟩⟩
    · rw [k2]; exact sized_corner hsu
    · rw [k2]
      refine mBestPlace_of hp hix hsu ?_
      intro r hr
      rw [hp.width, hp.height] at hrank hle
      rw [hrank] at hle
      exact ⟨fun hf => hle w h r ⟨hr, hf, .inl ⟨rfl, rfl⟩⟩, fun hfl hf => hle h w r ⟨hr, hf, .inr ⟨hfl, rfl, rfl⟩⟩⟩

theorem winv_start {W H : Int} (hd : Dims W H) {p : Pack} (h1 : p.width = W) (h2 : p.height = H) (h3 : p.free.live = [⟨0, 0, W, H⟩])
    (h3' : ∀ x ∈ p.free.stale, Good W H x) (h4 : p.used.live = []) (h5 : p.usedArea = 0) (h6 : p.free.Ok) (h7 : p.used.Ok) (h8 : p.free.cap ≠ 0) :
    WInv W H p := by
  have := hd.w
  have := hd.h
  refine ⟨hd, h1, h2, ?_, ?_, ?_, h6, h7, h8⟩
  · intro f hf
    rcases hf with hf | hf
    · rw [h3, List.mem_singleton] at hf
      subst hf
      refine ⟨⟨by dsimp only; omega, by dsimp only; omega⟩, ?_⟩
      unfold Inside
      dsimp only
      omega
    · exact h3' f hf
  · rw [h4]; simp
  · rw [h5, h4]; rfl

theorem mreached_inv {W H : Int} (hd : Dims W H) {p : Pack} (h : MReached W H p) : WInv W H p := by
  induction h with
  | create hc =>
    rename_i dyn fc uc p
    unfold create at hc
    obtain ⟨a, e1, hc⟩ := ok_of_bind hc
    injection hc with hc
    subst hc
    obtain ⟨k1, k2, k3⟩ := push_live e1
    have hst : AllGood (fun x => x = (⟨0, 0, W, H⟩ : Rect)) a := push_good e1 (fun x hx => by simp at hx) rfl
    refine winv_start hd rfl rfl k1 (fun x hx => ?_) rfl rfl (k2 (Nat.zero_le _)) (Nat.zero_le _) ?_
    · rw [hst x (.inr hx)]
      have := hd.w
      have := hd.h
      refine ⟨⟨by dsimp only; omega, by dsimp only; omega⟩, ?_⟩
      unfold Inside
      dsimp only
      omega
    · have := k2 (Nat.zero_le _)
      unfold Arr.Ok at this
      rw [k1] at this
      simp at this
      dsimp only
      omega
  | insert _ hw hh hins ih => exact (mInsertChoice_weak ih hw hh hins).1
  | clear _ ih =>
    rename_i p _
    have hc := ih.cap
    have hfree : (clear p).free = { p.free with live := [⟨0, 0, W, H⟩], stale := (p.free.live ++ p.free.stale).drop 1 } := by
      unfold clear reset
      dsimp only
      rw [if_pos hc, ih.width, ih.height]
    refine winv_start hd ih.width ih.height (by rw [hfree]) ?_ rfl rfl ?_ (Nat.zero_le _) ?_
    · rw [hfree]
      intro x hx
      exact ih.free x (List.mem_append.mp (List.mem_of_mem_drop hx))
    · rw [hfree]
      show 1 ≤ p.free.cap
      omega
    · rw [hfree]
      exact hc

end Tm.Pack
