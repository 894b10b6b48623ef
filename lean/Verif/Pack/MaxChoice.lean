import Verif.Pack.GuilLemmas
import Verif.Pack.MaxSpec

/-! # What the MaxRects choice finds -/

namespace Tm.Pack

open Tm

theorem ok_of_bind {α β : Type} {x : C α} {f : α → C β} {b : β} (h : (x >>= f) = .ok b) : ∃ a, x = .ok a ∧ f a = .ok b := by
  cases x with
  | error e => cases h
  | ok a => exact ⟨a, rfl, h⟩

theorem i32_eq {x y : Int} (h : i32 x = .ok y) : y = x ∧ -2147483648 ≤ x ∧ x ≤ 2147483647 := by
  unfold i32 at h
  split at h
  · injection h with h
    exact ⟨h.symm, by assumption⟩
  · cases h

theorem abs_eq {x y : Int} (h : abs x = .ok y) (hx : 0 ≤ x) : y = x := by
  unfold abs at h
  rw [if_neg (by omega)] at h
  injection h with h
  exact h.symm

theorem leftovers_eq {w h : Int} {r : Rect} {x : Int × Int} (hx : leftovers w h r = .ok x) (hf : FitsIn w h r) : x = (r.width - w, r.height - h) := by
  obtain ⟨h1, h2⟩ := hf
  unfold leftovers at hx
  obtain ⟨a, e1, hx⟩ := ok_of_bind hx
  obtain ⟨b, e2, hx⟩ := ok_of_bind hx
  obtain ⟨c, e3, hx⟩ := ok_of_bind hx
  obtain ⟨d, e4, hx⟩ := ok_of_bind hx
  have ha := (i32_eq e1).1
  have hc := (i32_eq e3).1
  have hb := abs_eq e2 (by omega)
  have hd := abs_eq e4 (by omega)
  injection hx with hx
  rw [← hx, hb, hd, ha, hc]

theorem commonLength_eq {a n b m x : Int} (hn : 0 ≤ n) (hm : 0 ≤ m) (h : commonLength a (a + n) b (b + m) = .ok x) : x = shared a n b m := by
  unfold commonLength at h
  unfold shared
  split at h
  · rename_i hc
    simp only [Bool.or_eq_true, decide_eq_true_eq] at hc
    injection h with h
    omega
  · rename_i hc
    simp only [Bool.or_eq_true, decide_eq_true_eq, not_or] at hc
    have := (i32_eq h).1
    rw [this]
    split <;> split <;> omega

theorem shared_nonneg (a n b m : Int) : 0 ≤ shared a n b m := by unfold shared; omega

theorem touching_nonneg (r c : Rect) : 0 ≤ touching r c := by
  unfold touching
  have h1 := shared_nonneg c.top c.height r.top r.height
  have h2 := shared_nonneg c.left c.width r.left r.width
  split_ifs <;> omega

theorem contactLoop_eq {l t w h : Int} (hw : 0 ≤ w) (hh : 0 ≤ h) : ∀ (cs : List Rect) (s x : Int), (∀ c ∈ cs, Pos c) →
    contactLoop l t (l + w) (t + h) cs s = .ok x → x = s + (cs.map (touching ⟨l, t, w, h⟩)).sum := by
  intro cs
  induction cs with
  | nil =>
    intro s x _ hx
    injection hx with hx
    simp [hx]
  | cons c cs ih =>
    intro s x hpos hx
    unfold contactLoop at hx
    obtain ⟨cr, e1, hx⟩ := ok_of_bind hx
    obtain ⟨cb, e2, hx⟩ := ok_of_bind hx
    have h1 := (i32_eq e1).1
    have h2 := (i32_eq e2).1
    subst h1 h2
    obtain ⟨p1, p2⟩ := hpos c (by simp)
    have key : ∀ s1 s2, s1 = s + (if c.left = l + w ∨ c.left + c.width = l then shared c.top c.height t h else 0) →
        s2 = s1 + (if c.top = t + h ∨ c.top + c.height = t then shared c.left c.width l w else 0) →
        contactLoop l t (l + w) (t + h) cs s2 = .ok x → x = s + ((c :: cs).map (touching ⟨l, t, w, h⟩)).sum := by
      intro s1 s2 g1 g2 g3
      have := ih s2 x (fun c hc => hpos c (by simp [hc])) g3
      rw [this, List.map_cons, List.sum_cons, g2, g1]
      unfold touching
      dsimp only
      omega
    dsimp only at hx
    split at hx
    · rename_i hc
      obtain ⟨n, e4, hx⟩ := ok_of_bind hx
      obtain ⟨s1, e3, hx⟩ := ok_of_bind hx
      have e4' := commonLength_eq (by omega) hh e4
      have e3' := (i32_eq e3).1
      have hc' : c.left = l + w ∨ c.left + c.width = l := by simpa using hc
      split at hx
      · rename_i hd
        obtain ⟨m, e6, hx⟩ := ok_of_bind hx
        obtain ⟨s2, e5, hx⟩ := ok_of_bind hx
        have e6' := commonLength_eq (by omega) hw e6
        have e5' := (i32_eq e5).1
        have hd' : c.top = t + h ∨ c.top + c.height = t := by simpa using hd
        exact key s1 s2 (by rw [if_pos hc', e3', e4']) (by rw [if_pos hd', e5', e6']) hx
      · rename_i hd
        have hd' : ¬ (c.top = t + h ∨ c.top + c.height = t) := by simpa using hd
        exact key s1 s1 (by rw [if_pos hc', e3', e4']) (by rw [if_neg hd']; omega) hx
    · rename_i hc
      have hc' : ¬ (c.left = l + w ∨ c.left + c.width = l) := by simpa using hc
      rw [ok_bind] at hx
      split at hx
      · rename_i hd
        obtain ⟨m, e6, hx⟩ := ok_of_bind hx
        obtain ⟨s2, e5, hx⟩ := ok_of_bind hx
        have e6' := commonLength_eq (by omega) hw e6
        have e5' := (i32_eq e5).1
        have hd' : c.top = t + h ∨ c.top + c.height = t := by simpa using hd
        exact key s s2 (by rw [if_neg hc']; omega) (by rw [if_pos hd', e5', e6']) hx
      · rename_i hd
        have hd' : ¬ (c.top = t + h ∨ c.top + c.height = t) := by simpa using hd
        exact key s s (by rw [if_neg hc']; omega) (by rw [if_neg hd']; omega) hx

theorem contactScore_eq {p : Pack} {l t w h x : Int} (hw : 0 ≤ w) (hh : 0 ≤ h) (hpos : ∀ c ∈ p.used.live, Pos c)
    (hx : contactScore p l t (l + w) (t + h) = .ok x) : x = touchingAll p.width p.height p.used.live ⟨l, t, w, h⟩ := by
  unfold contactScore at hx
  unfold touchingAll
  dsimp only
  have fin : ∀ s1 s2, s1 = (if l = 0 ∨ l + w = p.width then h else 0) → s2 = s1 + (if t = 0 ∨ t + h = p.height then w else 0) →
      contactLoop l t (l + w) (t + h) p.used.live s2 = .ok x →
      x = (if l = 0 ∨ l + w = p.width then h else 0) + (if t = 0 ∨ t + h = p.height then w else 0) + (p.used.live.map (touching ⟨l, t, w, h⟩)).sum := by
    intro s1 s2 g1 g2 g3
    rw [contactLoop_eq hw hh _ _ _ hpos g3, g2, g1]
  dsimp only at hx
  split at hx
  · rename_i hc
    obtain ⟨s1, e1, hx⟩ := ok_of_bind hx
    have e1' := (i32_eq e1).1
    have hc' : l = 0 ∨ l + w = p.width := by simpa using hc
    split at hx
    · rename_i hd
      obtain ⟨m, e6, hx⟩ := ok_of_bind hx
      obtain ⟨s2, e5, hx⟩ := ok_of_bind hx
      have e6' := (i32_eq e6).1
      have e5' := (i32_eq e5).1
      have hd' : t = 0 ∨ t + h = p.height := by simpa using hd
      exact fin s1 s2 (by rw [if_pos hc']; omega) (by rw [if_pos hd']; omega) hx
    · rename_i hd
      have hd' : ¬ (t = 0 ∨ t + h = p.height) := by simpa using hd
      exact fin s1 s1 (by rw [if_pos hc']; omega) (by rw [if_neg hd']; omega) hx
  · rename_i hc
    have hc' : ¬ (l = 0 ∨ l + w = p.width) := by simpa using hc
    rw [ok_bind] at hx
    split at hx
    · rename_i hd
      obtain ⟨m, e6, hx⟩ := ok_of_bind hx
      obtain ⟨s2, e5, hx⟩ := ok_of_bind hx
      have e6' := (i32_eq e6).1
      have e5' := (i32_eq e5).1
      have hd' : t = 0 ∨ t + h = p.height := by simpa using hd
      exact fin 0 s2 (by rw [if_neg hc']) (by rw [if_pos hd']; omega) hx
    · rename_i hd
      have hd' : ¬ (t = 0 ∨ t + h = p.height) := by simpa using hd
      exact fin 0 0 (by rw [if_neg hc']) (by rw [if_neg hd']; omega) hx

/-- The numbers a rule ranks by, in order of importance. -/
def key (fit : MFit) (s : Int × Int) : Int × Int :=
  match fit with
  | .longSide => (s.2, s.1)
  | .contact => (s.1, 0)
  | _ => s

theorem mBetter_iff (fit : MFit) (s : Int × Int) (res : MChoice) :
    mBetter fit s res = true ↔ ¬ NotWorse (key fit (res.score0, res.score1)) (key fit s) := by
  unfold mBetter NotWorse key
  cases fit <;> simp <;> omega

theorem NotWorse.trans {a b c : Int × Int} (h : NotWorse a b) (h' : NotWorse b c) : NotWorse a c := by
  unfold NotWorse at *; omega

theorem NotWorse.total (a b : Int × Int) : NotWorse a b ∨ NotWorse b a := by
  unfold NotWorse; omega

theorem NotWorse.refl (a : Int × Int) : NotWorse a a := by
  unfold NotWorse; omega

theorem minMax_eq (a b : Int) : minMax (a, b) = (min a b, max a b) := by
  unfold minMax
  dsimp only
  split
  · rw [min_eq_left (by omega), max_eq_right (by omega)]
  · rw [min_eq_right (by omega), max_eq_left (by omega)]

/-- The free rectangle lies within the range of integers. -/
structure Ranged (r : Rect) : Prop where
  pos : Pos r
  left : 0 ≤ r.left ∧ r.left + r.width ≤ 2147483647
  top : 0 ≤ r.top ∧ r.top + r.height ≤ 2147483647

theorem touchingAll_nonneg (W H : Int) (used : List Rect) (r : Rect) (hr : 0 ≤ r.width ∧ 0 ≤ r.height) : 0 ≤ touchingAll W H used r := by
  unfold touchingAll
  have : 0 ≤ (used.map (touching r)).sum := by
    induction used with
    | nil => simp
    | cons c cs ih =>
      rw [List.map_cons, List.sum_cons]
      have := touching_nonneg r c
      omega
  split_ifs <;> omega

theorem mScore_eq {p : Pack} {fit : MFit} {w h : Int} {c : Rect} {s : Int × Int} (hpos : ∀ c ∈ p.used.live, Pos c) (hw : 1 ≤ w) (hh : 1 ≤ h)
    (hr : Ranged c) (hf : FitsIn w h c) (hs : mScore p fit w h c = .ok s) :
    key fit s = rank p.width p.height p.used.live fit w h c ∧ (s.1 < intMax ∨ s.2 < intMax) ∧ s.1 ≤ intMax ∧ s.2 ≤ intMax := by
  have hf' := hf
  obtain ⟨f1, f2⟩ := hf'
  have ⟨⟨q1, q2⟩, r1, r2⟩ := hr
  unfold mScore at hs
  cases fit with
  | shortSide =>
    dsimp only at hs
    obtain ⟨x, e1, hs⟩ := ok_of_bind hs
    rw [leftovers_eq e1 hf, minMax_eq] at hs
    injection hs with hs
    subst hs
    refine ⟨rfl, ?_, ?_, ?_⟩ <;> unfold intMax <;> dsimp only <;> omega
  | longSide =>
    dsimp only at hs
    obtain ⟨x, e1, hs⟩ := ok_of_bind hs
    rw [leftovers_eq e1 hf, minMax_eq] at hs
    injection hs with hs
    subst hs
    refine ⟨rfl, ?_, ?_, ?_⟩ <;> unfold intMax <;> dsimp only <;> omega
  | area =>
    dsimp only at hs
    obtain ⟨a, e1, hs⟩ := ok_of_bind hs
    obtain ⟨b, e2, hs⟩ := ok_of_bind hs
    obtain ⟨d, e3, hs⟩ := ok_of_bind hs
    obtain ⟨x, e4, hs⟩ := ok_of_bind hs
    rw [leftovers_eq e4 hf, minMax_eq] at hs
    injection hs with hs
    subst hs
    obtain ⟨h1, _, _⟩ := i32_eq e1
    obtain ⟨h2, _, _⟩ := i32_eq e2
    obtain ⟨h3, _, _⟩ := i32_eq e3
    subst h1 h2 h3
    refine ⟨rfl, ?_, ?_, ?_⟩ <;> unfold intMax <;> dsimp only <;> omega
  | bottomLeft =>
    dsimp only at hs
    obtain ⟨y, e1, hs⟩ := ok_of_bind hs
    obtain ⟨h1, _, _⟩ := i32_eq e1
    injection hs with hs
    subst hs h1
    refine ⟨rfl, ?_, ?_, ?_⟩ <;> unfold intMax <;> dsimp only <;> omega
  | contact =>
    dsimp only at hs
    obtain ⟨r, e1, hs⟩ := ok_of_bind hs
    obtain ⟨b, e2, hs⟩ := ok_of_bind hs
    obtain ⟨n, e3, hs⟩ := ok_of_bind hs
    obtain ⟨m, e4, hs⟩ := ok_of_bind hs
    injection hs with hs'
    obtain ⟨h1, _, _⟩ := i32_eq e1
    obtain ⟨h2, _, _⟩ := i32_eq e2
    obtain ⟨h4, _, _⟩ := i32_eq e4
    subst h1 h2
    have h3 := contactScore_eq (by omega) (by omega) hpos e3
    have h5 := touchingAll_nonneg p.width p.height p.used.live ⟨c.left, c.top, w, h⟩ ⟨by dsimp only; omega, by dsimp only; omega⟩
    subst hs'
    subst h4
    subst h3
    refine ⟨rfl, ?_, ?_, ?_⟩ <;> unfold intMax <;> dsimp only <;> omega

/-! ### The search -/

/-- The choice is the best among those places that were looked at. -/
inductive MB (p : Pack) (fit : MFit) (flip : Bool) (w h : Int) (all : List Rect) (Seen : Int → Int → Rect → Prop) (res : MChoice) : Prop
  | none : res = ⟨0, intMax, intMax, false⟩ → (∀ w' h' r, ¬ Seen w' h' r) → MB p fit flip w h all Seen res
  | some (r : Rect) : all[res.index]? = some r → (if res.flipped then flip = true ∧ FitsIn h w r else FitsIn w h r) →
      key fit (res.score0, res.score1) = rank p.width p.height p.used.live fit (if res.flipped then h else w) (if res.flipped then w else h) r →
      (res.score0 < intMax ∨ res.score1 < intMax) →
      (∀ w' h' r', Seen w' h' r' → NotWorse (key fit (res.score0, res.score1)) (rank p.width p.height p.used.live fit w' h' r')) →
      MB p fit flip w h all Seen res

theorem mTry_ok {p : Pack} {fit : MFit} {flip : Bool} {w h : Int} {all : List Rect} {Seen : Int → Int → Rect → Prop} {res res' : MChoice}
    (hpos : ∀ c ∈ p.used.live, Pos c) (hw : 1 ≤ w) (hh : 1 ≤ h) (hb : MB p fit flip w h all Seen res) {c : Rect} {i : Nat} (hix : all[i]? = some c)
    (hr : Ranged c) (fl : Bool) (hfl : fl = true → flip = true) (ht : mTry p fit (if fl then h else w) (if fl then w else h) fl c i res = .ok res') :
    MB p fit flip w h all (fun w' h' r => Seen w' h' r ∨ (w' = (if fl then h else w) ∧ h' = (if fl then w else h) ∧ r = c ∧ FitsIn w' h' r)) res' := by
  unfold mTry at ht
  by_cases hf : FitsIn (if fl then h else w) (if fl then w else h) c
  · rw [if_pos (by simpa [FitsIn] using hf)] at ht
    obtain ⟨s, es, ht⟩ := ok_of_bind ht
    injection ht with ht
    obtain ⟨k1, k2, k3, k4⟩ := mScore_eq hpos (by split <;> omega) (by split <;> omega) hr hf es
    by_cases hbet : mBetter fit s res = true
    · rw [if_pos hbet] at ht
      subst ht
      rw [mBetter_iff] at hbet
      refine .some c hix ?_ k1 k2 ?_
      · dsimp only
        cases fl with
        | true => exact ⟨hfl rfl, hf⟩
        | false => exact hf
      · rintro w' h' r' (hs | ⟨rfl, rfl, rfl, hs⟩)
        · cases hb with
          | none _ hno => exact absurd hs (hno _ _ _)
          | some r _ _ _ _ hle =>
            have h1 := hle w' h' r' hs
            have h2 : NotWorse (key fit s) (key fit (res.score0, res.score1)) := (NotWorse.total _ _).resolve_right hbet
            exact h2.trans h1
        · dsimp only
          rw [← k1]
          exact NotWorse.refl _
    · rw [if_neg hbet] at ht
      subst ht
      rw [mBetter_iff, not_not] at hbet
      cases hb with
      | none he hno =>
        exfalso
        subst he
        unfold NotWorse key at hbet
        cases fit <;> dsimp only at hbet <;> try omega
        · have : rank p.width p.height p.used.live .contact (if fl then h else w) (if fl then w else h) c =
              (- touchingAll p.width p.height p.used.live ⟨c.left, c.top, (if fl then h else w), (if fl then w else h)⟩, 0) := rfl
          rw [this] at k1
          unfold key at k1
          dsimp only at k1
          injection k1 with k1 _
          have := touchingAll_nonneg p.width p.height p.used.live ⟨c.left, c.top, (if fl then h else w), (if fl then w else h)⟩
            ⟨by dsimp only; split <;> omega, by dsimp only; split <;> omega⟩
          unfold intMax at hbet
          omega
      | some r a1 a2 a3 a4 a5 =>
        refine .some r a1 a2 a3 a4 ?_
        rintro w' h' r' (hs | ⟨rfl, rfl, rfl, hs⟩)
        · exact a5 w' h' r' hs
        · rw [← k1]
          exact hbet
  · rw [if_neg (by simpa [FitsIn] using hf)] at ht
    injection ht with ht
    subst ht
    have hnf : ∀ w' h' r, ¬ (w' = (if fl then h else w) ∧ h' = (if fl then w else h) ∧ r = c ∧ FitsIn w' h' r) := by
      rintro w' h' r ⟨rfl, rfl, rfl, hs⟩
      exact hf hs
    cases hb with
    | none he hno =>
      refine .none he fun w' h' r hs => ?_
      rcases hs with hs | hs
      · exact hno _ _ _ hs
      · exact hnf _ _ _ hs
    | some r a1 a2 a3 a4 a5 =>
      refine .some r a1 a2 a3 a4 fun w' h' r' hs => ?_
      rcases hs with hs | hs
      · exact a5 _ _ _ hs
      · exact absurd hs (hnf _ _ _)

theorem MB.congr {p : Pack} {fit : MFit} {flip : Bool} {w h : Int} {all : List Rect} {S T : Int → Int → Rect → Prop} {res : MChoice}
    (hb : MB p fit flip w h all S res) (hst : ∀ w' h' r, T w' h' r → S w' h' r) : MB p fit flip w h all T res := by
  cases hb with
  | none he hno => exact .none he fun w' h' r hs => hno _ _ _ (hst _ _ _ hs)
  | some r a1 a2 a3 a4 a5 => exact .some r a1 a2 a3 a4 fun w' h' r' hs => a5 _ _ _ (hst _ _ _ hs)

/-- All ways to put the rectangle into one of these. -/
def Ways (flip : Bool) (w h : Int) (l : List Rect) (w' h' : Int) (r : Rect) : Prop :=
  r ∈ l ∧ FitsIn w' h' r ∧ ((w' = w ∧ h' = h) ∨ (flip = true ∧ w' = h ∧ h' = w))

theorem mBest_ok {p : Pack} {fit : MFit} {flip : Bool} {w h : Int} {all : List Rect} (hpos : ∀ c ∈ p.used.live, Pos c) (hw : 1 ≤ w) (hh : 1 ≤ h)
    (hr : ∀ r ∈ all, Ranged r) : ∀ (cs seen : List Rect) (res c : MChoice), all = seen ++ cs → MB p fit flip w h all (Ways flip w h seen) res →
    mBest p fit flip w h cs seen.length res = .ok c → MB p fit flip w h all (Ways flip w h all) c := by
  intro cs
  induction cs with
  | nil =>
    intro seen res c ha hb hc
    rw [List.append_nil] at ha
    subst ha
    injection hc with hc
    subst hc
    exact hb
  | cons a cs ih =>
    intro seen res c ha hb hc
    have hix : all[seen.length]? = some a := by rw [ha]; simp
    have hmem : a ∈ all := by rw [ha]; simp
    have hap : all = (seen ++ [a]) ++ cs := by rw [ha]; simp
    have hlen : (seen ++ [a]).length = seen.length + 1 := by simp
    unfold mBest at hc
    have hc' : ∃ res1, mTry p fit w h false a seen.length res = .ok res1 ∧
        ((if flip then mTry p fit h w true a seen.length res1 else .ok res1) >>= fun res2 => mBest p fit flip w h cs (seen.length + 1) res2) = .ok c := by
      dsimp only at hc
      have fin : ∀ (hc : (mTry p fit w h false a seen.length res >>= fun res1 =>
          if flip then mTry p fit h w true a seen.length res1 >>= fun res2 => mBest p fit flip w h cs (seen.length + 1) res2
          else Except.ok res1 >>= fun res2 => mBest p fit flip w h cs (seen.length + 1) res2) = .ok c), ∃ res1, mTry p fit w h false a seen.length res = .ok res1 ∧
        ((if flip then mTry p fit h w true a seen.length res1 else .ok res1) >>= fun res2 => mBest p fit flip w h cs (seen.length + 1) res2) = .ok c := by
        intro hc
        obtain ⟨res1, e1, hc⟩ := ok_of_bind hc
        refine ⟨res1, e1, ?_⟩
        cases flip <;> exact hc
      split at hc
      · obtain ⟨_, _, hc⟩ := ok_of_bind hc
        obtain ⟨_, _, hc⟩ := ok_of_bind hc
        obtain ⟨_, _, hc⟩ := ok_of_bind hc
        exact fin hc
      · exact fin hc
    obtain ⟨res1, e1, hc⟩ := hc'
    obtain ⟨res2, e2, hc⟩ := ok_of_bind hc
    rw [← hlen] at hc
    refine ih _ res2 c hap ?_ hc
    have h1 := mTry_ok hpos hw hh hb hix (hr a hmem) false (by simp) (by simpa using e1)
    cases hfl : flip with
    | true =>
      subst hfl
      have h2 := mTry_ok hpos hw hh h1 hix (hr a hmem) true (by simp) (by simpa using e2)
      refine h2.congr ?_
      rintro w' h' r ⟨hm, hf, hor⟩
      rcases List.mem_append.mp hm with hm | hm
      · exact .inl (.inl ⟨hm, hf, hor⟩)
      · rw [List.mem_singleton] at hm
        rcases hor with ⟨rfl, rfl⟩ | ⟨_, rfl, rfl⟩
        · exact .inl (.inr ⟨rfl, rfl, hm, hf⟩)
        · exact .inr ⟨rfl, rfl, hm, hf⟩
    | false =>
      subst hfl
      have e2' : res1 = res2 := by simpa using e2
      subst e2'
      refine h1.congr ?_
      rintro w' h' r ⟨hm, hf, hor⟩
      rcases List.mem_append.mp hm with hm | hm
      · exact .inl ⟨hm, hf, hor⟩
      · rw [List.mem_singleton] at hm
        rcases hor with ⟨rfl, rfl⟩ | ⟨hx, _⟩
        · exact .inr ⟨rfl, rfl, hm, hf⟩
        · cases hx

theorem mChoice_ok {p : Pack} {fit : MFit} {flip : Bool} {w h : Int} (hpos : ∀ c ∈ p.used.live, Pos c) (hw : 1 ≤ w) (hh : 1 ≤ h)
    (hr : ∀ r ∈ p.free.live, Ranged r) {c : MChoice} (hc : mChoice p w h fit flip = .ok c) :
    MB p fit flip w h p.free.live (Ways flip w h p.free.live) c :=
  mBest_ok hpos hw hh hr p.free.live [] _ c rfl (.none rfl fun _ _ _ hs => by simpa using hs.1) hc

end Tm.Pack
