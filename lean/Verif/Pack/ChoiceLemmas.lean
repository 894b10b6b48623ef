import Verif.Pack.Lemmas

/-! # What the guillotine choice finds -/

namespace Tm.Pack

open Tm

/-- The score function computes what is left over, without overflow, wherever there is room. -/
def Scores (score : Int → Int → Rect → C Int) (fit : Fit) (w h : Int) (r : Rect) : Prop :=
  FitsIn w h r → score w h r = .ok (leftover fit w h r) ∧ 0 ≤ leftover fit w h r ∧ leftover fit w h r < intMax

/-- A rectangle lies in the bin as far as sizes go. -/
structure Small (r : Rect) : Prop where
  pos : Pos r
  w : r.width ≤ 2147483647
  h : r.height ≤ 2147483647
  a : r.width * r.height ≤ 2147483647

theorem fit_scores (fit : Fit) {w h : Int} (hw : 1 ≤ w) (hh : 1 ≤ h) {r : Rect} (hr : Small r) : Scores fit.score fit w h r := by
  intro hf
  obtain ⟨h1, h2⟩ := hf
  have ⟨hp, hsw, hsh, ha⟩ := hr
  have hm : w * h ≤ r.width * r.height := Int.mul_le_mul h1 h2 (by omega) (by omega)
  have hm1 : 1 ≤ w * h := by nlinarith
  have hlo : leftovers w h r = .ok (r.width - w, r.height - h) := by
    unfold leftovers
    rw [i32_ok (by omega) (by omega), ok_bind, show abs (r.width - w) = .ok (r.width - w) from by unfold abs; rw [if_neg (by omega)],
      ok_bind, i32_ok (by omega) (by omega), ok_bind,
      show abs (r.height - h) = .ok (r.height - h) from by unfold abs; rw [if_neg (by omega)], ok_bind]
  cases fit with
  | area =>
    refine ⟨?_, ?_, ?_⟩
    · show scoreArea w h r = _
      unfold scoreArea
      rw [i32_ok (by omega) (by omega), ok_bind, i32_ok (by omega) (by omega), ok_bind, i32_ok (by omega) (by omega)]
      rfl
    · unfold leftover; dsimp only; omega
    · unfold leftover intMax; dsimp only; omega
  | shortSide =>
    refine ⟨?_, ?_, ?_⟩
    · show scoreShort w h r = _
      unfold scoreShort
      rw [hlo, ok_bind]
      dsimp only
      unfold leftover
      dsimp only
      congr 1
      split <;> omega
    · unfold leftover; dsimp only; omega
    · unfold leftover intMax; dsimp only; omega
  | longSide =>
    refine ⟨?_, ?_, ?_⟩
    · show scoreLong w h r = _
      unfold scoreLong
      rw [hlo, ok_bind]
      dsimp only
      unfold leftover
      dsimp only
      congr 1
      split <;> omega
    · unfold leftover; dsimp only; omega
    · unfold leftover intMax; dsimp only; omega

/-- The rectangle fits into the free rectangle in the way that was chosen. -/
def Suits (flip : Bool) (w h : Int) (c : Choice) (r : Rect) : Prop :=
  if c.flipped then flip = true ∧ FitsIn h w r else FitsIn w h r

/-- The choice is the best one among `seen`; `all` is what the index refers to. -/
inductive Best (fit : Fit) (flip : Bool) (w h : Int) (all seen : List Rect) (c : Choice) : Prop
  | none : c.score = intMax → (∀ r ∈ seen, ¬ RoomIn flip w h r) → Best fit flip w h all seen c
  | some (r : Rect) : all[c.index]? = some r → Suits flip w h c r → c.score = leftoverEither fit w h r → c.score < intMax → intMin < c.score →
      (∀ s ∈ seen, RoomIn flip w h s → c.score ≤ leftoverEither fit w h s) → (∀ s ∈ seen, ¬ ExactIn flip w h s) →
      (c.flipped = true ↔ ¬ FitsIn w h r) →
      Best fit flip w h all seen c

/-- What the whole search finds. -/
inductive Found (fit : Fit) (flip : Bool) (w h : Int) (all : List Rect) (c : Choice) : Prop
  | best : Best fit flip w h all all c → Found fit flip w h all c
  | exact (r : Rect) : all[c.index]? = some r → c.score = intMin → (if c.flipped then flip = true ∧ h = r.width ∧ w = r.height else w = r.width ∧ h = r.height) →
      Found fit flip w h all c

theorem bestFit_found {score : Int → Int → Rect → C Int} {fit : Fit} (flip : Bool) {w h : Int} (all : List Rect)
    (h1 : ∀ r ∈ all, Scores score fit w h r) (h2 : ∀ r ∈ all, Scores score fit h w r) :
    ∀ (cs seen : List Rect) (res : Choice), all = seen ++ cs → Best fit flip w h all seen res →
      ∃ c, bestFit score flip w h cs seen.length res = .ok c ∧ Found fit flip w h all c := by
  intro cs
  induction cs with
  | nil =>
    intro seen res ha hb
    rw [List.append_nil] at ha
    subst ha
    exact ⟨res, rfl, .best hb⟩
  | cons c cs ih =>
    intro seen res ha hb
    have hix : all[seen.length]? = some c := by rw [ha]; simp
    have hmem : c ∈ all := by rw [ha]; simp
    have hap : all = (seen ++ [c]) ++ cs := by rw [ha]; simp
    have hlen : (seen ++ [c]).length = seen.length + 1 := by simp
    unfold bestFit
    split
    · rename_i he
      simp only [Bool.and_eq_true, decide_eq_true_eq] at he
      exact ⟨_, rfl, .exact c hix rfl he⟩
    rename_i hne
    split
    · rename_i he
      simp only [Bool.and_eq_true, decide_eq_true_eq] at he
      exact ⟨_, rfl, .exact c hix rfl he⟩
    rename_i hne2
    have hnex : ¬ ExactIn flip w h c := by
      rintro (he | he)
      · exact hne (by simpa using he)
      · exact hne2 (by simpa using he)
    have key : ∀ (s : Int) (fl : Bool), s = leftoverEither fit w h c → 0 ≤ s → s < intMax → Suits flip w h ⟨seen.length, s, fl⟩ c →
        (fl = true ↔ ¬ FitsIn w h c) →
        Best fit flip w h all (seen ++ [c]) (if s < res.score then ⟨seen.length, s, fl⟩ else res) := by
      intro s fl hs h0 hmax hsu hfl
      have hnew : s < res.score → Best fit flip w h all (seen ++ [c]) ⟨seen.length, s, fl⟩ := by
        intro hlt
        refine .some c hix hsu hs hmax (by unfold intMin; dsimp only; omega) ?_ ?_ hfl
        · intro r hr hroom
          rcases List.mem_append.mp hr with hr | hr
          · cases hb with
            | none _ hno => exact absurd hroom (hno r hr)
            | some r' _ _ _ _ _ hle _ _ =>
              have := hle r hr hroom
              dsimp only
              omega
          · rw [List.mem_singleton] at hr
            subst hr
            exact Int.le_of_eq hs
        · intro r hr
          rcases List.mem_append.mp hr with hr | hr
          · cases hb with
            | none _ hno =>
              intro he
              refine hno r hr ?_
              rcases he with he | he
              · exact .inl ⟨Int.le_of_eq he.1, Int.le_of_eq he.2⟩
              · exact .inr ⟨he.1, Int.le_of_eq he.2.1, Int.le_of_eq he.2.2⟩
            | some r' _ _ _ _ _ _ hno _ => exact hno r hr
          · rw [List.mem_singleton] at hr
            subst hr
            exact hnex
      split
      · rename_i hlt
        exact hnew hlt
      · rename_i hlt
        cases hb with
        | none hm _ => exact absurd (by omega) hlt
        | some r' a b c' d e f g i =>
          refine .some r' a b c' d e ?_ ?_ i
          · intro r hr hroom
            rcases List.mem_append.mp hr with hr | hr
            · exact f r hr hroom
            · rw [List.mem_singleton] at hr
              subst hr
              omega
          · intro r hr
            rcases List.mem_append.mp hr with hr | hr
            · exact g r hr
            · rw [List.mem_singleton] at hr
              subst hr
              exact hnex
    split
    · rename_i hf
      simp only [Bool.and_eq_true, decide_eq_true_eq] at hf
      obtain ⟨e1, e2, e3⟩ := h1 c hmem hf
      rw [e1, ok_bind, ← hlen]
      refine ih _ _ hap (key _ false ?_ e2 e3 ?_ ?_)
      · unfold leftoverEither
        rw [if_pos (show FitsIn w h c from hf)]
      · exact hf
      · constructor
        · intro h; cases h
        · intro h; exact absurd hf h
    rename_i hnf
    have hnf' : ¬ FitsIn w h c := by
      intro hf
      exact hnf (by simpa [FitsIn] using hf)
    split
    · rename_i hf
      simp only [Bool.and_eq_true, decide_eq_true_eq] at hf
      obtain ⟨e1, e2, e3⟩ := h2 c hmem hf.2
      rw [e1, ok_bind, ← hlen]
      refine ih _ _ hap (key _ true ?_ e2 e3 ?_ ?_)
      · unfold leftoverEither
        rw [if_neg hnf']
      · exact hf
      · exact ⟨fun _ => hnf', fun _ => rfl⟩
    · rename_i hnf2
      rw [← hlen]
      have hnr : ¬ RoomIn flip w h c := by
        rintro (hf | hf)
        · exact hnf' hf
        · exact hnf2 (by simpa [FitsIn] using hf)
      refine ih _ _ hap ?_
      cases hb with
      | none hm hno =>
        refine .none hm fun r hr => ?_
        rcases List.mem_append.mp hr with hr | hr
        · exact hno r hr
        · rw [List.mem_singleton] at hr
          subst hr
          exact hnr
      | some r' a b c' d e f g i =>
        refine .some r' a b c' d e ?_ ?_ i
        · intro r hr hroom
          rcases List.mem_append.mp hr with hr | hr
          · exact f r hr hroom
          · rw [List.mem_singleton] at hr
            subst hr
            exact absurd hroom hnr
        · intro r hr
          rcases List.mem_append.mp hr with hr | hr
          · exact g r hr
          · rw [List.mem_singleton] at hr
            subst hr
            exact hnex

theorem choice_found (p : Pack) {w h : Int} (hw : 1 ≤ w) (hh : 1 ≤ h) (fit : Fit) (flip : Bool) (hs : ∀ r ∈ p.free.live, Small r) :
    ∃ c, choice p w h fit flip = .ok c ∧ Found fit flip w h p.free.live c := by
  have := bestFit_found (score := fit.score) (fit := fit) flip (w := w) (h := h) p.free.live (fun r hr => fit_scores fit hw hh (hs r hr))
    (fun r hr => fit_scores fit hh hw (hs r hr)) p.free.live [] ⟨0, intMax, false⟩ rfl (.none rfl (by simp))
  exact this

end Tm.Pack
