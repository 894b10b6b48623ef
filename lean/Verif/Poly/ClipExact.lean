import Mathlib.Tactic.LinearCombination
import Verif.Poly.ClipFind

/-! # Which crossings are found, in exact arithmetic -/

namespace Tm.Poly
open Spec

theorem exact_lt (a b : ℚ) : exact.lt (.fin a) (.fin b) = decide (a < b) := rfl

theorem exact_asymm : ∀ x y, exact.lt x y = true → exact.lt y x = false := by
  intro x y
  rcases x with x | ⟨⟨⟩⟩ | _ <;> rcases y with y | ⟨⟨⟩⟩ | _ <;> simp [exact, X.lt] <;> intro h <;> exact le_of_lt h

theorem factor_exact (a d b e : V ℚ) :
    intersectionFactor exact (fin a) (fin d) (fin b) (fin e) =
      if d.x * e.y - d.y * e.x = 1 / 1000000 then none
      else some (exact.div (.fin (e.x * (a.y - b.y) - e.y * (a.x - b.x))) (.fin (d.x * e.y - d.y * e.x))) := by
  unfold intersectionFactor fin
  simp only [exact_sub, exact_mul, exact_lit, exact_lt]
  by_cases h : d.x * e.y - d.y * e.x = 1 / 1000000
  · rw [if_pos h, if_neg]
    rw [h]
    simp
  · rw [if_neg h, if_pos]
    rcases lt_or_gt_of_ne h with h | h
    · rw [decide_eq_true h]
      rfl
    · rw [decide_eq_true (show 1 / 1000000 < d.x * e.y - d.y * e.x from h), Bool.or_true]

theorem unit_exact (x : ℚ) : inUnit exact (.fin x) = true ↔ 0 ≤ x ∧ x ≤ 1 := by
  unfold inUnit
  rw [exact_lit, exact_lit, exact_le, exact_le]
  simp

theorem unit_zero (a : ℚ) : inUnit exact (exact.div (.fin a) (.fin 0)) = false := by
  have e : exact.div (.fin a) (.fin 0) = if a = 0 then .nan else .inf (decide (a < 0)) := by
    show (if (0 : ℚ) = 0 then (if a = 0 then X.nan else X.inf (decide (a < 0))) else X.fin (a / 0)) = _
    rw [if_pos rfl]
  rw [e]
  by_cases h : a = 0
  · rw [if_pos h]
    rfl
  · rw [if_neg h]
    cases decide (a < 0) <;> rfl

/-- The factors of a common point. -/
theorem factors_common {p q r s : V ℚ} {x y : ℚ} (h : Common p q r s x y) (h0 : turn p q r s ≠ 0) (h1 : turn p q r s ≠ 1 / 1000000)
    (h2 : turn p q r s ≠ -1 / 1000000) : factors exact (fin p) (fin q) (fin r) (fin s) = some (.fin x, .fin y) := by
  unfold factors
  have m : ∀ a b : V ℚ, (fin a).minus exact (fin b) = fin ⟨a.x - b.x, a.y - b.y⟩ := fun a b => by
    unfold V.minus fin
    rw [exact_sub, exact_sub]
  rw [m, m, factor_exact, factor_exact]
  unfold turn at h0 h1 h2
  have ex := h.ex
  have ey := h.ey
  have e' : (s.x - r.x) * (q.y - p.y) - (s.y - r.y) * (q.x - p.x) = -((q.x - p.x) * (s.y - r.y) - (q.y - p.y) * (s.x - r.x)) := by ring
  have h3 : -((q.x - p.x) * (s.y - r.y) - (q.y - p.y) * (s.x - r.x)) ≠ 1 / 1000000 := fun e => h2 (by linarith)
  have e1 : ((s.x - r.x) * (p.y - r.y) - (s.y - r.y) * (p.x - r.x)) / ((q.x - p.x) * (s.y - r.y) - (q.y - p.y) * (s.x - r.x)) = x := by
    rw [div_eq_iff h0]
    linear_combination (s.x - r.x) * ey - (s.y - r.y) * ex
  have e2 : ((q.x - p.x) * (r.y - p.y) - (q.y - p.y) * (r.x - p.x)) / -((q.x - p.x) * (s.y - r.y) - (q.y - p.y) * (s.x - r.x)) = y := by
    rw [div_eq_iff (neg_ne_zero.2 h0)]
    linear_combination (q.y - p.y) * ex - (q.x - p.x) * ey
  dsimp only
  rw [e', if_neg h1, if_neg h3, exact_div _ _ h0, exact_div _ _ (neg_ne_zero.2 h0), e1, e2]
  dsimp only
  rw [if_pos]
  rw [Bool.and_eq_true, unit_exact, unit_exact]
  exact ⟨⟨h.x0, h.x1⟩, h.y0, h.y1⟩

/-- Factors are those of a common point. -/
theorem common_factors {p q r s : V ℚ} {x y : X} (h : factors exact (fin p) (fin q) (fin r) (fin s) = some (x, y)) :
    ∃ x' y', x = .fin x' ∧ y = .fin y' ∧ Common p q r s x' y' := by
  unfold factors at h
  have m : ∀ a b : V ℚ, (fin a).minus exact (fin b) = fin ⟨a.x - b.x, a.y - b.y⟩ := fun a b => by
    unfold V.minus fin
    rw [exact_sub, exact_sub]
  rw [m, m, factor_exact, factor_exact] at h
  have e' : (s.x - r.x) * (q.y - p.y) - (s.y - r.y) * (q.x - p.x) = -((q.x - p.x) * (s.y - r.y) - (q.y - p.y) * (s.x - r.x)) := by ring
  dsimp only at h
  rw [e'] at h
  by_cases c1 : (q.x - p.x) * (s.y - r.y) - (q.y - p.y) * (s.x - r.x) = 1 / 1000000
  · rw [if_pos c1] at h
    cases h
  rw [if_neg c1] at h
  by_cases c2 : -((q.x - p.x) * (s.y - r.y) - (q.y - p.y) * (s.x - r.x)) = 1 / 1000000
  · rw [if_pos c2] at h
    cases h
  rw [if_neg c2] at h
  dsimp only at h
  by_cases h0 : (q.x - p.x) * (s.y - r.y) - (q.y - p.y) * (s.x - r.x) = 0
  · rw [h0, unit_zero] at h
    cases h
  rw [exact_div _ _ h0, exact_div _ _ (neg_ne_zero.2 h0)] at h
  split at h
  · rename_i hu
    rw [Bool.and_eq_true, unit_exact, unit_exact] at hu
    cases h
    refine ⟨_, _, rfl, rfl, hu.1.1, hu.1.2, hu.2.1, hu.2.2, ?_, ?_⟩
    · generalize hD : (q.x - p.x) * (s.y - r.y) - (q.y - p.y) * (s.x - r.x) = D at *
      field_simp
      rw [← hD]
      ring
    · generalize hD : (q.x - p.x) * (s.y - r.y) - (q.y - p.y) * (s.x - r.x) = D at *
      field_simp
      rw [← hD]
      ring
  · cases h

/-- The pair of sides of a crossing comes before another one. -/
def Before (c d : Nat × Nat) : Prop := c.1 < d.1 ∨ c.1 = d.1 ∧ c.2 < d.2

theorem side_map {ps : List (V ℚ)} {i : Nat} (h : i < ps.length) : ∃ p q, Side ps i p q ∧ (ps.map fin)[i]? = some (fin q) ∧
    (ps.map fin)[if i = 0 then ps.length - 1 else i - 1]? = some (fin p) := by
  have h2 : (if i = 0 then ps.length - 1 else i - 1) < ps.length := by split <;> omega
  exact ⟨ps[if i = 0 then ps.length - 1 else i - 1], ps[i], ⟨List.getElem?_eq_getElem h, List.getElem?_eq_getElem h2⟩,
    by rw [List.getElem?_map, List.getElem?_eq_getElem h]; rfl, by rw [List.getElem?_map, List.getElem?_eq_getElem h2]; rfl⟩

theorem side_unique {α : Type} {ps : List α} {i : Nat} {p q p' q' : α} (h : Side ps i p q) (h' : Side ps i p' q') : p' = p ∧ q' = q := by
  have h1 := h.1
  have h2 := h.2
  rw [h'.1] at h1
  rw [h'.2] at h2
  cases h1
  cases h2
  exact ⟨rfl, rfl⟩

theorem findLoop_exact {ps qs : List (V ℚ)} (hg : General ps qs) : ∀ (fuel : Nat) {cs : List (Meeting X)} {a b : Clip X} {i j : Nat},
    Both exact (ps.map fin) (qs.map fin) cs a b → Memory a (ps.length + ps.length * qs.length) → Memory b (qs.length + ps.length * qs.length) →
    cs.length ≤ i * qs.length + j → j ≤ qs.length → i ≤ ps.length → (i = ps.length → j = 0) → 0 < qs.length →
    (∀ c, c ∈ cs ↔ Before (c.i, c.j) (i, j) ∧ Meets ps qs c) →
    cs.Pairwise (fun c d => Before (c.i, c.j) (d.i, d.j)) → (ps.length - i) * (qs.length + 1) < fuel + j →
    ∃ a' b' cs', findLoop exact fuel a b i (if i = 0 then ps.length - 1 else i - 1) j (if j = 0 then qs.length - 1 else j - 1) = .ok (a', b') ∧
      Both exact (ps.map fin) (qs.map fin) cs' a' b' ∧ (∀ c, c ∈ cs' ↔ Meets ps qs c) ∧
      cs'.Pairwise (fun c d => Before (c.i, c.j) (d.i, d.j))
  | 0, cs, a, b, i, j, h, ma, mb, hc, hj, hi, hend, hm, hcs, hpw, hf => by
    by_cases hin : i = ps.length
    · have := hend hin
      omega
    · exfalso
      have : 1 * (qs.length + 1) ≤ (ps.length - i) * (qs.length + 1) := Nat.mul_le_mul_right _ (by omega)
      omega
  | fuel + 1, cs, a, b, i, j, h, ma, mb, hc, hj, hi, hend, hm, hcs, hpw, hf => by
    have oa := h.a.original
    have ob := h.b.original
    have sa := h.a.size
    have sb := h.b.size
    rw [List.length_map] at sa sb oa ob
    rw [List.length_map] at sa sb
    unfold findLoop
    by_cases h1 : i < a.originalSize
    · rw [if_pos h1]
      have hmul : i * qs.length + qs.length ≤ ps.length * qs.length := by
        have : (i + 1) * qs.length ≤ ps.length * qs.length := Nat.mul_le_mul_right _ (by omega)
        rw [Nat.add_mul, Nat.one_mul] at this
        exact this
      by_cases h2 : j < b.originalSize
      · rw [if_pos h2]
        obtain ⟨p, q, S1, g1, g2⟩ := side_map (show i < ps.length by omega)
        obtain ⟨r, s, S2, g3, g4⟩ := side_map (show j < qs.length by omega)
        have hnext : (if j + 1 = 0 then qs.length - 1 else j + 1 - 1) = j := by rw [if_neg (by omega)]; omega
        cases hfac : factors exact (fin p) (fin q) (fin r) (fin s) with
        | none =>
          have hno : ∀ x y, ¬ Common p q r s x y := fun x y hxy => by
            obtain ⟨n0, n1, n2, -⟩ := hg i j p q r s x y S1 S2 hxy
            rw [factors_common hxy n0 n1 n2] at hfac
            cases hfac
          rw [pair_miss h g1 g2 g3 g4 hfac, ok_bind]
          simp only [Bool.false_eq_true, if_false]
          have ih := findLoop_exact hg fuel (i := i) (j := j + 1) h ma mb (by omega) (by omega) hi (by omega) hm (fun c => ?_) hpw (by omega)
          · rwa [hnext] at ih
          · rw [hcs]
            refine ⟨fun ⟨b1, b2⟩ => ⟨?_, b2⟩, fun ⟨b1, b2⟩ => ⟨?_, b2⟩⟩
            · unfold Before at b1 ⊢
              simp only at b1 ⊢
              omega
            · by_cases hij : c.i = i ∧ c.j = j
              · obtain ⟨p', q', r', s', x, y, T1, T2, hxy, -⟩ := b2
                rw [hij.1] at T1
                rw [hij.2] at T2
                obtain ⟨rfl, rfl⟩ := side_unique S1 T1
                obtain ⟨rfl, rfl⟩ := side_unique S2 T2
                exact absurd hxy (hno x y)
              · unfold Before at b1 ⊢
                simp only at b1 ⊢
                omega
        | some xy =>
          obtain ⟨x, y⟩ := xy
          rw [pair_found h g1 g2 g3 g4 hfac]
          obtain ⟨x, y, rfl, rfl, hxy⟩ := common_factors hfac
          obtain ⟨n0, n1, n2, l1, l2, l3, l4⟩ := hg i j p q r s x y S1 S2 hxy
          have hd : degenerate exact (.fin x) (.fin y) = false := by
            unfold degenerate
            simp only [exact_lit, exact_le, Bool.or_eq_false_iff, decide_eq_false_iff_not, not_le]
            exact ⟨⟨⟨l1, l2⟩, l3⟩, l4⟩
          obtain ⟨a', b', e, B, c1, c2, c3, c4⟩ := found_ok exact_asymm h ⟨by have := ma.enough; omega, ma.exists', ma.numbered⟩
            ⟨by have := mb.enough; omega, mb.exists', mb.numbered⟩ (ip := if i = 0 then ps.length - 1 else i - 1)
            (jp := if j = 0 then qs.length - 1 else j - 1) (p := fin p) (aDir := (fin q).minus exact (fin p)) (bDir := (fin s).minus exact (fin r))
            (show i < (ps.map fin).length by rw [List.length_map]; omega) (show j < (qs.map fin).length by rw [List.length_map]; omega) hd
          rw [e, ok_bind]
          simp only [Bool.false_eq_true, if_false]
          have hpos : (⟨exact.add (fin p).x (exact.mul (.fin x) ((fin q).minus exact (fin p)).x),
              exact.add (fin p).y (exact.mul (.fin x) ((fin q).minus exact (fin p)).y)⟩ : V X)
              = ⟨.fin (p.x + x * (q.x - p.x)), .fin (p.y + x * (q.y - p.y))⟩ := by
            unfold V.minus fin
            simp only [exact_sub, exact_mul, exact_add]
          rw [hpos] at B
          have ih := findLoop_exact hg fuel (i := i) (j := j + 1) B
            ⟨by rw [c1]; exact ma.enough, by rw [c1, c2]; exact ma.exists', by rw [c1]; exact ma.numbered⟩
            ⟨by rw [c3]; exact mb.enough, by rw [c3, c4]; exact mb.exists', by rw [c3]; exact mb.numbered⟩
            (by rw [List.length_append, List.length_singleton]; omega) (by omega) hi (by omega) hm (fun c => ?_) ?_ (by omega)
          · rwa [hnext] at ih
          · rw [List.mem_append, List.mem_singleton, hcs]
            constructor
            · rintro (⟨b1, b2⟩ | rfl)
              · refine ⟨?_, b2⟩
                unfold Before at b1 ⊢
                simp only at b1 ⊢
                omega
              · exact ⟨.inr ⟨rfl, Nat.lt_succ_self j⟩, p, q, r, s, x, y, S1, S2, hxy, rfl, rfl, rfl⟩
            · rintro ⟨b1, b2⟩
              by_cases hij : c.i = i ∧ c.j = j
              · right
                obtain ⟨p', q', r', s', x', y', T1, T2, hxy', e1, e2, e3⟩ := b2
                rw [hij.1] at T1
                rw [hij.2] at T2
                obtain ⟨rfl, rfl⟩ := side_unique S1 T1
                obtain ⟨rfl, rfl⟩ := side_unique S2 T2
                rw [factors_common hxy' n0 n1 n2] at hfac
                cases hfac
                obtain ⟨ci, cj, cp, ca, cb⟩ := c
                simp only at hij e1 e2 e3
                rw [hij.1, hij.2, e1, e2, e3]
              · left
                refine ⟨?_, b2⟩
                unfold Before at b1 ⊢
                simp only at b1 ⊢
                omega
          · rw [List.pairwise_append]
            exact ⟨hpw, List.pairwise_singleton _ _, fun c hc d hd => by rw [List.mem_singleton] at hd; subst hd; exact ((hcs c).1 hc).1⟩
      · rw [if_neg h2]
        have hjm : j = qs.length := by omega
        have e0 : (if j = 0 then qs.length - 1 else j - 1) = qs.length - 1 := by rw [if_neg (by omega), hjm]
        have e1 : (i + 1) * qs.length = i * qs.length + qs.length := by rw [Nat.add_mul, Nat.one_mul]
        have e2 : (ps.length - i) * (qs.length + 1) = (ps.length - (i + 1)) * (qs.length + 1) + (qs.length + 1) := by
          rw [show ps.length - i = (ps.length - (i + 1)) + 1 by omega, Nat.add_mul, Nat.one_mul]
        have ih := findLoop_exact hg fuel (i := i + 1) (j := 0) h ma mb (by omega) (by omega) (by omega) (by omega) hm (fun c => ?_) hpw (by omega)
        · rw [if_neg (by omega), if_pos rfl, Nat.add_sub_cancel] at ih
          rw [e0]
          exact ih
        · rw [hcs]
          refine ⟨fun ⟨b1, b2⟩ => ⟨?_, b2⟩, fun ⟨b1, b2⟩ => ⟨?_, b2⟩⟩
          · unfold Before at b1 ⊢
            simp only at b1 ⊢
            omega
          · have hb2 := b2
            obtain ⟨_, _, _, s', _, _, _, T2, -⟩ := b2
            have := (List.getElem?_eq_some_iff.1 T2.1).1
            unfold Before at b1 ⊢
            simp only at b1 ⊢
            omega
    · rw [if_neg h1]
      have hin : i = ps.length := by omega
      refine ⟨a, b, cs, rfl, h, fun c => ?_, hpw⟩
      rw [hcs]
      refine ⟨And.right, fun hc => ⟨?_, hc⟩⟩
      obtain ⟨_, _, _, _, _, _, T1, -⟩ := hc
      have := (List.getElem?_eq_some_iff.1 T1.1).1
      left
      simp only
      omega

end Tm.Poly
