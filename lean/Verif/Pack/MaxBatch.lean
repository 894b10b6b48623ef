import Verif.Pack.MaxWeak
import Verif.Pack.BatchLemmas

/-! # MaxRects: batches -/

namespace Tm.Pack

open Tm

theorem abs_le {x y : Int} (h : abs x = .ok y) (hx : x ≤ 2147483647) : y ≤ 2147483647 := by
  unfold abs at h
  split at h
  · have := i32_eq h; omega
  · injection h with h; omega

theorem leftovers_le {w h : Int} {r : Rect} {x : Int × Int} (hx : leftovers w h r = .ok x) : x.1 ≤ 2147483647 ∧ x.2 ≤ 2147483647 := by
  unfold leftovers at hx
  obtain ⟨a, e1, hx⟩ := ok_of_bind hx
  obtain ⟨b, e2, hx⟩ := ok_of_bind hx
  obtain ⟨c, e3, hx⟩ := ok_of_bind hx
  obtain ⟨d, e4, hx⟩ := ok_of_bind hx
  injection hx with hx
  subst hx
  have h1 := i32_eq e1
  have h3 := i32_eq e3
  exact ⟨abs_le e2 (by omega), abs_le e4 (by omega)⟩

theorem mScore_le {p : Pack} {fit : MFit} {w h : Int} {c : Rect} {s : Int × Int} (hc : c.left ≤ 2147483647) (hs : mScore p fit w h c = .ok s) :
    s.1 ≤ intMax := by
  unfold intMax
  unfold mScore at hs
  cases fit with
  | shortSide =>
    obtain ⟨x, e, hs⟩ := ok_of_bind hs
    injection hs with hs
    have := leftovers_le e
    rw [← hs]
    unfold minMax
    split <;> omega
  | longSide =>
    obtain ⟨x, e, hs⟩ := ok_of_bind hs
    injection hs with hs
    have := leftovers_le e
    rw [← hs]
    unfold minMax
    split <;> omega
  | area =>
    obtain ⟨_, _, hs⟩ := ok_of_bind hs
    obtain ⟨_, _, hs⟩ := ok_of_bind hs
    obtain ⟨d, e, hs⟩ := ok_of_bind hs
    obtain ⟨_, _, hs⟩ := ok_of_bind hs
    injection hs with hs
    have := i32_eq e
    rw [← hs]
    dsimp only
    omega
  | bottomLeft =>
    obtain ⟨d, e, hs⟩ := ok_of_bind hs
    injection hs with hs
    have := i32_eq e
    rw [← hs]
    dsimp only
    omega
  | contact =>
    obtain ⟨_, _, hs⟩ := ok_of_bind hs
    obtain ⟨_, _, hs⟩ := ok_of_bind hs
    obtain ⟨_, _, hs⟩ := ok_of_bind hs
    obtain ⟨d, e, hs⟩ := ok_of_bind hs
    injection hs with hs
    have := i32_eq e
    rw [← hs]
    dsimp only
    omega

theorem mTry_le {p : Pack} {fit : MFit} {w h : Int} {fl : Bool} {c : Rect} {i : Nat} {res r : MChoice} (hc : c.left ≤ 2147483647)
    (ht : mTry p fit w h fl c i res = .ok r) (hr : res.score0 ≤ intMax) : r.score0 ≤ intMax := by
  unfold mTry at ht
  split at ht
  · obtain ⟨s, e, ht⟩ := ok_of_bind ht
    injection ht with ht
    subst ht
    split
    · exact mScore_le hc e
    · exact hr
  · injection ht with ht
    subst ht
    exact hr

theorem mBest_le {p : Pack} {fit : MFit} {flip : Bool} {w h : Int} : ∀ (cs : List Rect) (i : Nat) (res r : MChoice), (∀ c ∈ cs, c.left ≤ 2147483647) →
    mBest p fit flip w h cs i res = .ok r → res.score0 ≤ intMax → r.score0 ≤ intMax := by
  intro cs
  induction cs with
  | nil =>
    intro i res r _ h hr
    injection h with h
    subst h
    exact hr
  | cons c cs ih =>
    intro i res r hc hb hr
    have key : (do
        let res ← mTry p fit w h false c i res
        let res ← if flip then mTry p fit h w true c i res else .ok res
        mBest p fit flip w h cs (i + 1) res) = .ok r → r.score0 ≤ intMax := by
      intro hk
      dsimp only at hk
      obtain ⟨r1, e1, hk⟩ := ok_of_bind hk
      have h1 := mTry_le (hc c (by simp)) e1 hr
      cases flip with
      | true =>
        rw [if_pos rfl] at hk
        obtain ⟨r2, e2, hk⟩ := ok_of_bind hk
        exact ih _ _ _ (fun d hd => hc d (by simp [hd])) hk (mTry_le (hc c (by simp)) e2 h1)
      | false =>
        rw [if_neg (by decide), ok_bind] at hk
        exact ih _ _ _ (fun d hd => hc d (by simp [hd])) hk h1
    unfold mBest at hb
    by_cases hfa : fit = .area
    · rw [if_pos hfa] at hb
      obtain ⟨_, _, hb⟩ := ok_of_bind hb
      obtain ⟨_, _, hb⟩ := ok_of_bind hb
      obtain ⟨_, _, hb⟩ := ok_of_bind hb
      exact key hb
    · rw [if_neg hfa] at hb
      exact key hb

/-- The order in which the scores of different rectangles are compared. -/
def Lex (a b : MChoice) : Prop := a.score0 < b.score0 ∨ (a.score0 = b.score0 ∧ a.score1 ≤ b.score1)

theorem Lex.trans {a b c : MChoice} (h : Lex a b) (h' : Lex b c) : Lex a c := by unfold Lex at *; omega

theorem mBestDim_ok {p : Pack} {fit : MFit} {flip : Bool} (all : List Dim) : ∀ (ds seen : List Dim) (best b : MChoice × Nat), all = seen ++ ds →
    (∀ d ∈ seen, ∃ c, mChoice p d.width d.height fit flip = .ok c ∧ Lex best.1 c) →
    ((best.1.score0 = intMax ∧ best.1.score1 = intMax) ∨ ∃ d, all[best.2]? = some d ∧ mChoice p d.width d.height fit flip = .ok best.1) →
    mBestDim p fit flip ds seen.length best = .ok b →
    (∀ d ∈ all, ∃ c, mChoice p d.width d.height fit flip = .ok c ∧ Lex b.1 c) ∧
    ((b.1.score0 = intMax ∧ b.1.score1 = intMax) ∨ ∃ d, all[b.2]? = some d ∧ mChoice p d.width d.height fit flip = .ok b.1) := by
  intro ds
  induction ds with
  | nil =>
    intro seen best b ha hl hb h
    injection h with h
    subst h
    rw [List.append_nil] at ha
    subst ha
    exact ⟨hl, hb⟩
  | cons d ds ih =>
    intro seen best b ha hl hb h
    have hix : all[seen.length]? = some d := by rw [ha]; simp
    have hap : all = (seen ++ [d]) ++ ds := by rw [ha]; simp
    have hlen : (seen ++ [d]).length = seen.length + 1 := by simp
    unfold mBestDim at h
    obtain ⟨c, ec, h⟩ := ok_of_bind h
    rw [← hlen] at h
    split at h
    · rename_i hlt
      simp only [Bool.or_eq_true, Bool.and_eq_true, decide_eq_true_eq] at hlt
      refine ih _ _ _ hap ?_ (.inr ⟨d, hix, ec⟩) h
      intro d' hd'
      rcases List.mem_append.mp hd' with h | h
      · obtain ⟨c', h1, h2⟩ := hl d' h
        exact ⟨c', h1, Lex.trans (by unfold Lex; dsimp only; omega) h2⟩
      · rw [List.mem_singleton] at h
        subst h
        exact ⟨c, ec, by unfold Lex; dsimp only; omega⟩
    · rename_i hlt
      simp only [Bool.or_eq_true, Bool.and_eq_true, decide_eq_true_eq] at hlt
      refine ih _ _ _ hap ?_ hb h
      intro d' hd'
      rcases List.mem_append.mp hd' with h | h
      · exact hl d' h
      · rw [List.mem_singleton] at h
        subst h
        exact ⟨c, ec, by unfold Lex; omega⟩

theorem lex_key {fit : MFit} (hf : fit ≠ .longSide) {a b : MChoice} (h : Lex a b) : NotWorse (key fit (a.score0, a.score1)) (key fit (b.score0, b.score1)) := by
  unfold Lex at h
  unfold NotWorse key
  cases fit with
  | longSide => exact absurd rfl hf
  | _ => dsimp only; omega

theorem mInsertBatch_ok {W H : Int} (fit : MFit) (flip : Bool) : ∀ (n : Nat) (p : Pack) (ds : List Dim) (p' : Pack) (ds' : List Dim)
    (rs : List (Placed × Nat)), WInv W H p → n ≤ ds.length → (∀ d ∈ ds, 1 ≤ d.width ∧ 1 ≤ d.height) →
    mInsertBatch fit flip n p ds = .ok (p', ds', rs) →
    WInv W H p' ∧ ds'.Perm ds ∧ ds'.drop n = ds.drop n ∧ rs.length ≤ n ∧
      p'.used.live = p.used.live ++ rs.map (·.1.rect) ∧
      List.Forall₂ (Answers flip) rs ((ds'.take n).drop (n - rs.length)).reverse ∧
      Sequence fit flip (fun p ds _ res => fit ≠ .longSide → MBestOf W H p.used.live fit flip p.free.live ds res) p (ds.take n) p' rs
        (ds'.take (n - rs.length)) := by
  intro n
  induction n with
  | zero =>
    intro p ds p' ds' rs hp _ _ h
    injection h with h
    injection h with h1 h2
    injection h2 with h2 h3
    subst h1 h2 h3
    exact ⟨hp, .refl _, rfl, Nat.le_refl _, by simp, by simp, by simpa using .stop (by simp)⟩
  | succ n ih =>
    intro p ds p' ds' rs hp hlen hpos h
    unfold mInsertBatch at h
    obtain ⟨⟨best, i⟩, eb, h⟩ := ok_of_bind h
    dsimp only at h
    obtain ⟨hle, hb⟩ := mBestDim_ok (ds.take (n + 1)) (ds.take (n + 1)) [] (⟨0, intMax, intMax, false⟩, 0) (best, i) rfl (by simp) (.inl ⟨rfl, rfl⟩) eb
    dsimp only at hb hle
    have hleft : ∀ c ∈ p.free.live, c.left ≤ 2147483647 := fun c hc => by
      have := (hp.ranged c hc).left
      have := (hp.ranged c hc).pos.1
      omega
    by_cases hv : best.valid = true
    · rw [if_neg (by rw [hv]; decide)] at h
      obtain ⟨d, h2, h2'⟩ : ∃ d, (ds.take (n + 1))[i]? = some d ∧ mChoice p d.width d.height fit flip = .ok best := by
        rcases hb with hb | hb
        · unfold MChoice.valid at hv
          simp [hb.1, hb.2] at hv
        · exact hb
      have hdi : ds[i]? = some d := by
        rw [List.getElem?_take] at h2
        split at h2
        · exact h2
        · cases h2
      have hin : i ≤ n := by
        rw [List.getElem?_take] at h2
        split at h2
        · omega
        · cases h2
      have hdm : d ∈ ds := List.mem_of_getElem? hdi
      rw [show rd ds i = .ok d from by unfold rd; rw [hdi], ok_bind] at h
      obtain ⟨⟨p1, res⟩, e1, h⟩ := ok_of_bind h
      dsimp only at h
      have einsert : mInsertChoice p d.width d.height fit flip = .ok (p1, res) := by
        unfold mInsertChoice
        rw [h2', ok_bind, if_pos hv, e1]
      have hbm := mChoice_ok (fun r hr => (hp.used r hr).1) (hpos d hdm).1 (hpos d hdm).2 hp.ranged h2'
      cases hbm with
      | none he _ => rw [he] at hv; exact absurd hv (by decide)
      | some f hix hsu hrank hvalid _ =>
      obtain ⟨w1, w2, w3⟩ := mInsert_weak hp (hpos d hdm).1 (hpos d hdm).2 hix hsu e1
      obtain ⟨dn, hdn⟩ : ∃ dn, ds[n]? = some dn := ⟨_, List.getElem?_eq_getElem (by omega)⟩
      obtain ⟨ds1, g1, g2, g3, g4⟩ : ∃ ds1, (if i ≠ n then swap ds i n else .ok ds : C (List Dim)) = .ok ds1 ∧ ds1.Perm ds ∧ ds1[n]? = some d ∧
          ds1.drop (n + 1) = ds.drop (n + 1) := by
        by_cases hne : i ≠ n
        · rw [if_pos hne, swap_ok hdi hdn]
          refine ⟨_, rfl, set_set_perm hdi hdn, ?_, ?_⟩
          · rw [List.getElem?_set_self (by rw [List.length_set]; omega)]
          · rw [List.drop_set_of_lt (by omega), List.drop_set_of_lt (by omega)]
        · rw [if_neg hne]
          have : i = n := by omega
          subst this
          exact ⟨ds, rfl, .refl _, hdi, rfl⟩
      have hrec : ∃ x, mInsertBatch fit flip n p1 ds1 = .ok x ∧ (.ok (x.1, x.2.1, (res, d.user) :: x.2.2) : C _) = .ok (p', ds', rs) := by
        by_cases hne : i ≠ n
        · rw [if_pos hne] at g1 h
          rw [g1, ok_bind] at h
          exact ok_of_bind h
        · rw [if_neg hne] at g1 h
          injection g1 with g1
          rw [ok_bind, g1] at h
          exact ok_of_bind h
      obtain ⟨⟨p'', ds'', rs'⟩, hb', hx⟩ := hrec
      injection hx with hx
      injection hx with hx1 hx2
      injection hx2 with hx2 hx3
      dsimp only at hx1 hx2 hx3
      subst hx1 hx2 hx3
      have hlen1 := g2.length_eq
      obtain ⟨k2, k3, k4, k5, k6, k9, k10⟩ := ih p1 ds1 p'' ds'' rs' w1 (by omega) (fun x hx => hpos x (g2.mem_iff.mp hx)) hb'
      have hdn' : ds''[n]? = some d := by
        have : (ds''.drop n)[0]? = (ds1.drop n)[0]? := by rw [k4]
        rw [List.getElem?_drop, List.getElem?_drop] at this
        simpa [g3] using this
      have hperm : (ds.take (n + 1)).Perm (d :: ds1.take n) := by
        have h1 : ds1.take (n + 1) = ds1.take n ++ [d] := by rw [List.take_add_one, g3]; rfl
        have h2 : (ds1.take (n + 1) ++ ds1.drop (n + 1)).Perm (ds.take (n + 1) ++ ds.drop (n + 1)) := by
          rw [List.take_append_drop, List.take_append_drop]; exact g2
        rw [g4] at h2
        have h3 := (List.perm_append_right_iff _).mp h2
        refine h3.symm.trans ?_
        rw [h1]
        exact List.perm_append_comm
      have hplaced : res.placed = true := by rw [w2]
      refine ⟨k2, k3.trans g2, ?_, by simpa using k5, ?_, ?_, ?_⟩
      · rw [← g4, show n + 1 = 1 + n from by omega, Nat.add_comm 1 n, ← List.drop_drop, ← List.drop_drop, k4]
      · rw [k6, w3]
        simp
      · have ht : ds''.take (n + 1) = ds''.take n ++ [d] := by
          rw [List.take_add_one, hdn']; rfl
        rw [List.length_cons, show n + 1 - (rs'.length + 1) = n - rs'.length from by omega, ht, List.drop_append_of_le_length, List.reverse_append]
        · refine .cons ⟨hplaced, rfl, ?_⟩ k9
          rw [w2]
          exact sized_corner hsu
        · rw [List.length_take, k3.length_eq]
          omega
      · rw [List.length_cons, show n + 1 - (rs'.length + 1) = n - rs'.length from by omega]
        refine .step hperm ?_ einsert hplaced k10
        intro hfit e he
        rw [w2]
        refine mBestPlace_of hp hix hsu ?_
        obtain ⟨c, ec, hlex⟩ := hle e he
        have hem : e ∈ ds := List.mem_of_mem_take he
        have hbe := mChoice_ok (fun r hr => (hp.used r hr).1) (hpos e hem).1 (hpos e hem).2 hp.ranged ec
        have hlex' := lex_key hfit hlex
        rw [hrank, hp.width, hp.height] at hlex'
        intro r hr
        cases hbe with
        | none _ hno =>
          exact ⟨fun hf => absurd ⟨hr, hf, .inl ⟨rfl, rfl⟩⟩ (hno e.width e.height r), fun hfl hf => absurd ⟨hr, hf, .inr ⟨hfl, rfl, rfl⟩⟩ (hno e.height e.width r)⟩
        | some _ _ _ _ _ hle' =>
          rw [hp.width, hp.height] at hle'
          exact ⟨fun hf => hlex'.trans (hle' e.width e.height r ⟨hr, hf, .inl ⟨rfl, rfl⟩⟩),
            fun hfl hf => hlex'.trans (hle' e.height e.width r ⟨hr, hf, .inr ⟨hfl, rfl, rfl⟩⟩)⟩
    · rw [if_pos (by simpa using hv)] at h
      injection h with h
      injection h with h1 h2
      injection h2 with h2 h3
      subst h1 h2 h3
      refine ⟨hp, .refl _, rfl, Nat.zero_le _, by simp, by simp, ?_⟩
      refine .stop fun d hd => ?_
      obtain ⟨c, ec, hlex⟩ := hle d hd
      have hc0 : c.score0 ≤ intMax := mBest_le _ _ _ _ hleft ec (Int.le_refl _)
      have hv' : best.score0 = intMax ∧ best.score1 = intMax := by
        unfold MChoice.valid at hv
        simp only [Bool.or_eq_true, decide_eq_true_eq, ne_eq] at hv
        omega
      have hcv : c.valid ≠ true := by
        intro hcv
        have hbm := mChoice_ok (fun r hr => (hp.used r hr).1) (hpos d (List.mem_of_mem_take hd)).1 (hpos d (List.mem_of_mem_take hd)).2 hp.ranged ec
        cases hbm with
        | none he _ => rw [he] at hcv; exact absurd hcv (by decide)
        | some _ _ _ _ hvalid _ =>
          unfold Lex at hlex
          omega
      unfold mInsertChoice
      rw [ec, ok_bind, if_neg hcv]

end Tm.Pack
