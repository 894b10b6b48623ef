import Verif.Pack.MaxLemmas

/-! # MaxRects: the free rectangles are the maximal empty ones -/

namespace Tm.Pack

open Tm

/-- The bin has a size that is representable. -/
structure Dims (W H : Int) : Prop where
  w : 1 ≤ W ∧ W ≤ 2147483647
  h : 1 ≤ H ∧ H ≤ 2147483647

/-- The state of a pack that is used with the MaxRects functions. -/
structure MInv (W H : Int) (p : Pack) : Prop where
  dims : Dims W H
  width : p.width = W
  height : p.height = H
  free : ∀ f ∈ p.free.live, Pos f ∧ Inside W H f ∧ ∀ r ∈ p.used.live, Apart f r
  anti : p.free.live.Pairwise Inc
  used : ∀ r ∈ p.used.live, Pos r ∧ Inside W H r
  apart : p.used.live.Pairwise Apart
  complete : ∀ q, Pos q → Inside W H q → (∀ r ∈ p.used.live, Apart q r) → ∃ f ∈ p.free.live, Within q f
  area : p.usedArea = areas p.used.live
  okF : p.free.Ok
  okU : p.used.Ok
  cap : p.free.cap ≠ 0

theorem ranged_of_inside {W H : Int} (hd : Dims W H) {r : Rect} (h1 : Pos r) (h2 : Inside W H r) : Ranged r := by
  have := hd.w
  have := hd.h
  unfold Inside at h2
  exact ⟨h1, by omega, by omega⟩

theorem MInv.ranged {W H : Int} {p : Pack} (hp : MInv W H p) : ∀ f ∈ p.free.live, Ranged f :=
  fun f hf => ranged_of_inside hp.dims (hp.free f hf).1 (hp.free f hf).2.1

theorem apart_symm {a b : Rect} (h : Apart a b) : Apart b a := fun x y hc => h x y ⟨hc.2, hc.1⟩

theorem apart_within {a b c : Rect} (h : Apart a b) (hc : Within c a) : Apart c b := by
  intro x y hxy
  refine h x y ⟨?_, hxy.2⟩
  have := hxy.1
  unfold Covers Within at *
  omega

theorem inside_within {W H : Int} {a b : Rect} (h : Inside W H b) (hw : Within a b) : Inside W H a := by
  unfold Inside Within at *
  omega

/-- Of two free rectangles one is a part of the other only if they are the same. -/
theorem MInv.eq_of_within {W H : Int} {p : Pack} (hp : MInv W H p) {a b : Rect} (ha : a ∈ p.free.live) (hb : b ∈ p.free.live) (h : Within a b) : a = b := by
  by_contra hne
  obtain ⟨i, hi, rfl⟩ := List.mem_iff_getElem.mp ha
  obtain ⟨j, hj, rfl⟩ := List.mem_iff_getElem.mp hb
  have hanti := List.pairwise_iff_getElem.mp hp.anti
  rcases Nat.lt_trichotomy i j with hij | hij | hij
  · exact (hanti i j hi hj hij).1 h
  · subst hij
    exact hne rfl
  · exact (hanti j i hj hi hij).2 h

theorem minv_start {W H : Int} (hd : Dims W H) {p : Pack} (h1 : p.width = W) (h2 : p.height = H) (h3 : p.free.live = [⟨0, 0, W, H⟩]) (h4 : p.used.live = [])
    (h5 : p.usedArea = 0) (h6 : p.free.Ok) (h7 : p.used.Ok) (h8 : p.free.cap ≠ 0) : MInv W H p := by
  have := hd.w
  have := hd.h
  refine ⟨hd, h1, h2, ?_, ?_, ?_, ?_, ?_, ?_, h6, h7, h8⟩
  · intro f hf
    rw [h3, List.mem_singleton] at hf
    subst hf
    rw [h4]
    refine ⟨⟨by dsimp only; omega, by dsimp only; omega⟩, ?_, by simp⟩
    unfold Inside
    dsimp only
    omega
  · rw [h3]
    exact List.pairwise_singleton _ _
  · rw [h4]; simp
  · rw [h4]; exact .nil
  · intro q _ hi _
    rw [h3]
    refine ⟨_, List.mem_singleton.mpr rfl, ?_⟩
    unfold Inside at hi
    unfold Within
    dsimp only
    omega
  · rw [h5, h4]; rfl

/-- What is returned for a valid choice: the rectangle at the corner of the free rectangle. -/
def atCorner (f : Rect) (w h : Int) (flipped : Bool) : Rect := if flipped then ⟨f.left, f.top, h, w⟩ else ⟨f.left, f.top, w, h⟩

theorem areas_append (l : List Rect) (r : Rect) : areas (l ++ [r]) = areas l + r.width * r.height := by
  unfold areas
  simp [area]

theorem exact_of_within {W H w h : Int} {p : Pack} (hp : MInv W H p) {f : Rect} (hmem : f ∈ p.free.live) {flip fl : Bool}
    (hsu : if fl then flip = true ∧ FitsIn h w f else FitsIn w h f) (hnex : ∀ r ∈ p.free.live, ¬ ExactIn flip w h r) {g : Rect} (hg : g ∈ p.free.live) :
    ¬ Within g (atCorner f w h fl) := by
  intro hgu
  have huf : Within (atCorner f w h fl) f := by
    unfold atCorner
    cases fl with
    | true =>
      have hsu' : flip = true ∧ FitsIn h w f := hsu
      unfold FitsIn at hsu'
      rw [if_pos rfl]
      unfold Within; dsimp only; omega
    | false =>
      have hsu' : FitsIn w h f := hsu
      unfold FitsIn at hsu'
      rw [if_neg (by decide)]
      unfold Within; dsimp only; omega
  have : g = f := hp.eq_of_within hg hmem (hgu.trans huf)
  subst this
  refine hnex g hg ?_
  cases fl with
  | true =>
    have hsu' : flip = true ∧ FitsIn h w g := hsu
    unfold atCorner at hgu
    rw [if_pos rfl] at hgu
    unfold FitsIn at hsu'
    unfold Within at hgu
    dsimp only at hgu
    exact .inr ⟨hsu'.1, by omega, by omega⟩
  | false =>
    have hsu' : FitsIn w h g := hsu
    unfold atCorner at hgu
    rw [if_neg (by decide)] at hgu
    unfold FitsIn at hsu'
    unfold Within at hgu
    dsimp only at hgu
    exact .inl ⟨by omega, by omega⟩

theorem mInsert_ok {W H w h : Int} {flip : Bool} {p p' : Pack} (hp : MInv W H p) (hw : 1 ≤ w) (hh : 1 ≤ h) {c : MChoice} {f : Rect} {res : Placed}
    (hix : p.free.live[c.index]? = some f) (hsu : if c.flipped then flip = true ∧ FitsIn h w f else FitsIn w h f)
    (hnex : ∀ r ∈ p.free.live, ¬ ExactIn flip w h r) (hins : mInsert p w h c = .ok (p', res)) :
    MInv W H p' ∧ res = ⟨atCorner f w h c.flipped, c.flipped, true⟩ ∧ p'.used.live = p.used.live ++ [res.rect] := by
  have hmem := mem_of_getElem? hix
  unfold mInsert at hins
  obtain ⟨_, _, hins⟩ := ok_of_bind hins
  obtain ⟨u, eu, hins⟩ := ok_of_bind hins
  obtain ⟨a1, e1, hins⟩ := ok_of_bind hins
  obtain ⟨a2, e2, hins⟩ := ok_of_bind hins
  obtain ⟨p1, e3, hins⟩ := ok_of_bind hins
  injection hins with hins
  injection hins with h1 h2
  subst h1 h2
  have hu : u = atCorner f w h c.flipped := by
    unfold rectAt at eu
    rw [entry_ok hix, ok_bind] at eu
    injection eu with eu
    exact eu.symm
  have hufit : Pos u ∧ Within u f := by
    rw [hu]
    unfold atCorner
    cases hfl : c.flipped with
    | true =>
      rw [hfl] at hsu
      have hsu' : flip = true ∧ FitsIn h w f := hsu
      unfold FitsIn at hsu'
      rw [if_pos rfl]
      refine ⟨⟨by dsimp only; omega, by dsimp only; omega⟩, ?_⟩
      unfold Within; dsimp only; omega
    | false =>
      rw [hfl] at hsu
      have hsu' : FitsIn w h f := hsu
      unfold FitsIn at hsu'
      rw [if_neg (by decide)]
      refine ⟨⟨by dsimp only; omega, by dsimp only; omega⟩, ?_⟩
      unfold Within; dsimp only; omega
  obtain ⟨hupos, huf⟩ := hufit
  have huin := inside_within (hp.free f hmem).2.1 huf
  have huap : ∀ r ∈ p.used.live, Apart u r := fun r hr => apart_within ((hp.free f hmem).2.2 r hr) huf
  have hur := ranged_of_inside hp.dims hupos huin
  have hnex' : ∀ g ∈ p.free.live, ¬ Within g u := fun g hg => by
    rw [hu]
    exact exact_of_within hp hmem hsu hnex hg
  obtain ⟨s1, s2, s3⟩ := splitLoop_ok hur p.free.live hp.ranged
    (fun g hg hc => pieces_ne_nil (hp.free g hg).1 hupos (fun ha => by rw [(clearOf_iff hupos (hp.free g hg).1).mpr ha] at hc; cases hc) (hnex' g hg))
    p.free.live.length 0 p.free a1 (by omega) hp.okF (Nat.le_refl _) (fun _ _ _ => rfl) (by simp) e1
  have ha1 : ∀ x ∈ a1.live, ∃ g ∈ p.free.live, (Apart u g ∧ x = g) ∨ (¬ Apart u g ∧ x ∈ pieces g u) := by
    intro x hx
    obtain ⟨g, hg, hxg⟩ := List.mem_flatMap.mp (s1.mem_iff.mp hx)
    refine ⟨g, hg, ?_⟩
    unfold after at hxg
    by_cases hc : clearOf u g = true
    · rw [if_pos hc, List.mem_singleton] at hxg
      exact .inl ⟨(clearOf_iff hupos (hp.free g hg).1).mp hc, hxg⟩
    · rw [if_neg hc] at hxg
      exact .inr ⟨fun ha => hc ((clearOf_iff hupos (hp.free g hg).1).mpr ha), hxg⟩
  have hgood : ∀ x ∈ a1.live, Pos x ∧ Inside W H x ∧ (∀ r ∈ p.used.live, Apart x r) ∧ Apart x u := by
    intro x hx
    obtain ⟨g, hg, h | h⟩ := ha1 x hx
    · obtain ⟨h1, rfl⟩ := h
      exact ⟨(hp.free x hg).1, (hp.free x hg).2.1, (hp.free x hg).2.2, apart_symm h1⟩
    · obtain ⟨k1, k2, k3⟩ := pieces_good (hp.free g hg).1 hupos h.1 h.2
      exact ⟨k1, inside_within (hp.free g hg).2.1 k2, fun r hr => apart_within ((hp.free g hg).2.2 r hr) k2, apart_symm k3⟩
  obtain ⟨a2', t1, t2, t3, t4, t5⟩ := pruneLoop_ok (a1.live.length + 1) a1 0 s2
    (fun x hx => ranged_of_inside hp.dims (hgood x hx).1 (hgood x hx).2.1) (by omega) (fun k _ _ _ hk => by omega)
  rw [e2] at t1
  injection t1 with t1
  subst t1
  unfold note at e3
  obtain ⟨used, e4, e3⟩ := ok_of_bind e3
  obtain ⟨ar, e5, e3⟩ := ok_of_bind e3
  obtain ⟨tot, e6, e3⟩ := ok_of_bind e3
  injection e3 with e3
  subst e3
  obtain ⟨v1, v2, _⟩ := push_live e4
  have h5 := (i32_eq e5).1
  have h6 := (i32_eq e6).1
  dsimp only at v1 v2 h6
  refine ⟨⟨hp.dims, hp.width, hp.height, ?_, t5, ?_, ?_, ?_, ?_, t3, v2 hp.okU, ?_⟩, by rw [hu], v1⟩
  · dsimp only
    rw [v1]
    intro x hx
    obtain ⟨k1, k2, k3, k4⟩ := hgood x (t2.sub x hx)
    refine ⟨k1, k2, fun r hr => ?_⟩
    rcases List.mem_append.mp hr with hr | hr
    · exact k3 r hr
    · rw [List.mem_singleton] at hr
      subst hr
      exact k4
  · dsimp only
    rw [v1]
    intro r hr
    rcases List.mem_append.mp hr with hr | hr
    · exact hp.used r hr
    · rw [List.mem_singleton] at hr
      subst hr
      exact ⟨hupos, huin⟩
  · dsimp only
    rw [v1, List.pairwise_append]
    refine ⟨hp.apart, List.pairwise_singleton _ _, fun a ha b hb => ?_⟩
    rw [List.mem_singleton] at hb
    subst hb
    exact apart_symm (huap a ha)
  · dsimp only
    rw [v1]
    intro q hq hqi hqa
    obtain ⟨g, hg, hqg⟩ := hp.complete q hq hqi fun r hr => hqa r (by simp [hr])
    have hqu : Apart q u := hqa u (by simp)
    have : ∃ x ∈ a1.live, Within q x := by
      by_cases hov : Apart u g
      · refine ⟨g, s1.mem_iff.mpr (List.mem_flatMap.mpr ⟨g, hg, ?_⟩), hqg⟩
        unfold after
        rw [if_pos ((clearOf_iff hupos (hp.free g hg).1).mpr hov)]
        simp
      · obtain ⟨x, hx, hqx⟩ := pieces_complete hq hupos (hp.free g hg).1 hov hqg hqu
        refine ⟨x, s1.mem_iff.mpr (List.mem_flatMap.mpr ⟨g, hg, ?_⟩), hqx⟩
        unfold after
        rw [if_neg (fun hc => hov ((clearOf_iff hupos (hp.free g hg).1).mp hc))]
        exact hx
    obtain ⟨x, hx, hqx⟩ := this
    obtain ⟨y, hy, hxy⟩ := t2.cover x hx
    exact ⟨y, hy, hqx.trans hxy⟩
  · dsimp only
    rw [v1, areas_append, h6, h5, hp.area]
  · dsimp only
    rw [t4]
    have := hp.cap
    omega

theorem mInsertChoice_ok {W H w h : Int} {fit : MFit} {flip : Bool} {p p' : Pack} (hp : MInv W H p) (hw : 1 ≤ w) (hh : 1 ≤ h) {res : Placed}
    (hnex : ∀ r ∈ p.free.live, ¬ ExactIn flip w h r) (hins : mInsertChoice p w h fit flip = .ok (p', res)) :
    MInv W H p' ∧ ((p' = p ∧ res = notPlaced ∧ ∀ r ∈ p.free.live, ¬ RoomIn flip w h r) ∨
      (p'.used.live = p.used.live ++ [res.rect] ∧ res.placed = true ∧ Sized flip w h res ∧
        MBestPlace W H p.used.live fit flip p.free.live w h res)) := by
  unfold mInsertChoice at hins
  obtain ⟨c, ec, hins⟩ := ok_of_bind hins
  have hb := mChoice_ok (fun r hr => (hp.used r hr).1) hw hh hp.ranged ec
  cases hb with
  | none he hno =>
    subst he
    rw [if_neg (by decide)] at hins
    injection hins with hins
    injection hins with h1 h2
    subst h1 h2
    refine ⟨hp, .inl ⟨rfl, rfl, fun r hr hroom => ?_⟩⟩
    rcases hroom with h | h
    · exact hno _ _ _ ⟨hr, h, .inl ⟨rfl, rfl⟩⟩
    · exact hno _ _ _ ⟨hr, h.2, .inr ⟨h.1, rfl, rfl⟩⟩
  | some f hix hsu hrank hvalid hle =>
    have hv : c.valid = true := by
      unfold MChoice.valid
      simp only [Bool.or_eq_true, decide_eq_true_eq, ne_eq]
      omega
    rw [if_pos hv] at hins
    obtain ⟨k1, k2, k3⟩ := mInsert_ok hp hw hh hix hsu hnex hins
    refine ⟨k1, .inr ⟨k3, by rw [k2], ?_, f, mem_of_getElem? hix, ?_⟩⟩
    · rw [k2]
      unfold Sized atCorner
      dsimp only
      cases hfl : c.flipped with
      | true =>
        rw [hfl] at hsu
        exact ⟨hsu.1, rfl, rfl⟩
      | false => exact ⟨rfl, rfl⟩
    · rw [k2]
      dsimp only
      have hwid : (atCorner f w h c.flipped).width = (if c.flipped then h else w) := by unfold atCorner; cases c.flipped <;> rfl
      have hhei : (atCorner f w h c.flipped).height = (if c.flipped then w else h) := by unfold atCorner; cases c.flipped <;> rfl
      rw [hwid, hhei]
      refine ⟨by unfold atCorner; cases c.flipped <;> rfl, by unfold atCorner; cases c.flipped <;> rfl, ?_, ?_, ?_⟩
      · cases hfl : c.flipped with
        | true => rw [hfl] at hsu; exact hsu.2.1
        | false => rw [hfl] at hsu; exact hsu.1
      · cases hfl : c.flipped with
        | true => rw [hfl] at hsu; exact hsu.2.2
        | false => rw [hfl] at hsu; exact hsu.2
      · intro r hr
        rw [hp.width, hp.height] at hrank hle
        rw [hrank] at hle
        exact ⟨fun hf => hle w h r ⟨hr, hf, .inl ⟨rfl, rfl⟩⟩, fun hfl hf => hle h w r ⟨hr, hf, .inr ⟨hfl, rfl, rfl⟩⟩⟩

theorem noExact_inv {W H : Int} (hd : Dims W H) {p : Pack} (h : NoExact W H p) : MInv W H p := by
  induction h with
  | create hc =>
    rename_i dyn fc uc p
    unfold create at hc
    obtain ⟨a, e1, hc⟩ := ok_of_bind hc
    injection hc with hc
    subst hc
    obtain ⟨k1, k2, k3⟩ := push_live e1
    refine minv_start hd rfl rfl k1 rfl rfl (k2 (Nat.zero_le _)) (Nat.zero_le _) ?_
    have := k2 (Nat.zero_le _)
    unfold Arr.Ok at this
    rw [k1] at this
    simp at this
    dsimp only
    omega
  | insert _ hw hh hnex hins ih => exact (mInsertChoice_ok ih hw hh hnex hins).1
  | clear _ ih =>
    rename_i p _
    have hc := ih.cap
    have hfree : (clear p).free = { p.free with live := [⟨0, 0, W, H⟩], stale := (p.free.live ++ p.free.stale).drop 1 } := by
      unfold clear reset
      dsimp only
      rw [if_pos hc, ih.width, ih.height]
    refine minv_start hd ih.width ih.height (by rw [hfree]) rfl rfl ?_ (Nat.zero_le _) ?_
    · rw [hfree]
      show 1 ≤ p.free.cap
      omega
    · rw [hfree]
      exact hc

end Tm.Pack
