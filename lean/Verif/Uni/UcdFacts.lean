import Verif.Uni.UcdLemmas
/-!
# The Unicode data is that of the specification
-/
namespace Tm.Uni

theorem rd_eq {α : Type} {l : List α} {i : Nat} {v : α} (h : l[i]? = some v) : rd l i = .ok v := by rw [rd, h]

theorem mem_zipIdx' {α : Type} {l : List α} {i : Nat} {v : α} (h : l[i]? = some v) : (v, i) ∈ l.zipIdx := by
  rw [List.mem_iff_getElem?]
  exact ⟨i, by rw [List.getElem?_zipIdx, h]; simp⟩

theorem shift_mem {o : Nat} (ho : o < 128) : 8 * o ∈ shifts := by
  rw [shifts_eq]
  exact List.mem_map.2 ⟨o, List.mem_range.2 ho, rfl⟩

theorem byteAt_lt (b s : Nat) : byteAt b s < 256 := by
  have : byteAt b s ≤ 255 := Nat.and_le_right
  omega

/-- Reading from a block of the second table. -/
theorem two_of_block {b o B : Nat} (hb : ucdStageTwo[b]? = some B) (ho : o < 128) : stageTwoValue b o = .ok (byteAt B (8 * o)) := by
  have h1 : b < 210 := by
    rw [← sizes.2.1]
    exact (List.getElem?_eq_some_iff.1 hb).1
  have e1 : (b * 128 + o) / 128 = b := by omega
  have e2 : (b * 128 + o) % 128 = o := by omega
  rw [stageTwoValue, decide_eq_true (show b < 258 by omega), assert, if_pos rfl, ok_bind, decide_eq_true ho, assert, if_pos rfl, ok_bind, if_pos h1, stageTwoAt,
    e1, e2, rd_eq hb, ok_bind]
  rfl

/-- The computed blocks hold plain entries only. -/
theorem switch_plain (k o : Nat) : plainK (ucdSwitchTwo k o) = true ∧ ucdSwitchTwo k o < 256 := by
  have step : ∀ (c : Prop) [Decidable c] (a b : Nat), (plainK a = true ∧ a < 256) → (plainK b = true ∧ b < 256) →
      (plainK (if c then a else b) = true ∧ (if c then a else b) < 256) := by
    intro c _ a b ha hb
    by_cases h : c
    · rw [if_pos h]; exact ha
    · rw [if_neg h]; exact hb
  have all : ∀ v ∈ [0, 1, 6, 7, 8, 12, 13, 47, 78, 79, 80, 183, 236, 238], plainK v = true ∧ v < 256 := by decide +kernel
  unfold ucdSwitchTwo
  repeat' apply step
  all_goals exact all _ (by decide)

theorem two_of_switch {b o : Nat} (h1 : 210 ≤ b) (h2 : b < 258) (ho : o < 128) :
    ∃ k, stageTwoValue b o = .ok k ∧ plainK k = true ∧ k < 256 := by
  refine ⟨ucdSwitchTwo (b - 210) o, ?_, switch_plain _ _⟩
  rw [stageTwoValue, decide_eq_true h2, assert, if_pos rfl, ok_bind, decide_eq_true ho, assert, if_pos rfl, ok_bind, if_neg (by omega)]

theorem internal_eq {cp b k : Nat} {e : UcdEntry} (h : cp ≤ 0x10FFFF) (h1 : stageOneValue (cp / 128) = .ok b) (h2 : stageTwoValue b (cp % 128) = .ok k)
    (h3 : k < 239) (h4 : ucdEntries[k]? = some e) : getInternal cp = .ok e := by
  rw [getInternal, decide_eq_true h, assert, if_pos rfl, ok_bind, h1, ok_bind, h2, ok_bind, decide_eq_true h3, assert, if_pos rfl, ok_bind, rd_eq h4]

/-- The entry of a code point. -/
theorem look (cp : Nat) (h : cp ≤ 0x10FFFF) :
    ∃ k e, getInternal cp = .ok e ∧ ucdEntries[k]? = some e ∧ ((e.full = 0 ∧ e.offset = 0) ∨ (cp, k) ∈ changed) := by
  have ho : cp % 128 < 128 := Nat.mod_lt _ (by decide)
  have plain : ∀ b k, stageOneValue (cp / 128) = .ok b → stageTwoValue b (cp % 128) = .ok k → plainK k = true → k < 256 →
      ∃ k e, getInternal cp = .ok e ∧ ucdEntries[k]? = some e ∧ ((e.full = 0 ∧ e.offset = 0) ∨ (cp, k) ∈ changed) := by
    intro b k h1 h2 h3 h4
    obtain ⟨h5, e, h6, h7⟩ := plain_check k h4 h3
    exact ⟨k, e, internal_eq h h1 h2 h5 h6, h6, .inl h7⟩
  have switch : ∀ b, stageOneValue (cp / 128) = .ok b → 210 ≤ b → b < 258 →
      ∃ k e, getInternal cp = .ok e ∧ ucdEntries[k]? = some e ∧ ((e.full = 0 ∧ e.offset = 0) ∨ (cp, k) ∈ changed) := by
    intro b h1 h2 h3
    obtain ⟨k, h4, h5, h6⟩ := two_of_switch h2 h3 ho
    exact plain b k h1 h4 h5 h6
  by_cases hi : cp / 128 < 1025
  · have e1 : ∃ b, ucdStageOne[cp / 128]? = some b := by
      rw [← sizes.1] at hi
      exact ⟨_, List.getElem?_eq_getElem hi⟩
    obtain ⟨b, hb⟩ := e1
    have h1 : stageOneValue (cp / 128) = .ok b := by
      rw [stageOneValue, if_neg (by omega), if_pos hi, rd_eq hb]
    have h2 := List.all_eq_true.1 one_check _ (mem_zipIdx' hb)
    rw [Bool.and_eq_true, Bool.or_eq_true, Bool.or_eq_true] at h2
    have h3 : b ≤ 255 := Nat.le_of_ble_eq_true h2.1
    by_cases h210 : 210 ≤ b
    · exact switch b h1 h210 (by omega)
    · have e2 : ∃ B, ucdStageTwo[b]? = some B := by
        have : b < ucdStageTwo.length := by rw [sizes.2.1]; omega
        exact ⟨_, List.getElem?_eq_getElem this⟩
      obtain ⟨B, hB⟩ := e2
      have h4 := two_of_block hB ho
      by_cases hp : plainK (byteAt B (8 * (cp % 128))) = true
      · exact plain b _ h1 h4 hp (byteAt_lt _ _)
      · have h5 := List.all_eq_true.1 two_check _ (mem_zipIdx' hB)
        rw [Bool.or_eq_true] at h5
        have h6 : special.any (fun q => Nat.beq q.2 b) = true := by
          rcases h5 with h5 | h5
          · exact h5
          · exact absurd (List.all_eq_true.1 h5 _ (shift_mem ho)) hp
        have h7 : (cp / 128, b) ∈ special := by
          rcases h2.2 with (h7 | h7) | h7
          · exact absurd (Nat.le_of_ble_eq_true h7) h210
          · rw [h6] at h7; simp at h7
          · exact List.contains_iff_mem.1 h7
        have h8 : (cp, byteAt B (8 * (cp % 128))) ∈ changed := by
          refine List.mem_flatMap.2 ⟨_, h7, ?_⟩
          simp only [hB]
          refine List.mem_map.2 ⟨(cp % 128, byteAt B (8 * (cp % 128))), ?_, ?_⟩
          · refine List.mem_filterMap.2 ⟨_, shift_mem ho, ?_⟩
            rw [eq_false_of_ne_true hp, show 8 * (cp % 128) / 8 = cp % 128 by omega]
            rfl
          · simp only [Prod.mk.injEq, and_true]
            omega
        have h9 : byteAt B (8 * (cp % 128)) < 239 := Nat.le_of_ble_eq_true (List.all_eq_true.1 changed_check _ h8)
        have e3 : ∃ e, ucdEntries[byteAt B (8 * (cp % 128))]? = some e := by
          rw [← sizes.2.2] at h9
          exact ⟨_, List.getElem?_eq_getElem h9⟩
        obtain ⟨e, he⟩ := e3
        exact ⟨_, e, internal_eq h h1 h4 h9 he, he, .inr h8⟩
  · have h0 : stageOneValue (cp / 128) = .ok 210 ∨ ∃ b, stageOneValue (cp / 128) = .ok b ∧ 210 ≤ b ∧ b < 258 := by
      rw [stageOneValue, if_neg (by omega), if_neg hi]
      cases hl : ucdSwitchOne.lookup (cp / 128) with
      | none =>
        simp only
        split
        · exact .inr ⟨_, rfl, by decide, by decide⟩
        · exact .inl rfl
      | some v =>
        have : ∀ p ∈ ucdSwitchOne, 210 ≤ p.2 ∧ p.2 < 258 := by decide
        have hm : (cp / 128, v) ∈ ucdSwitchOne := by
          obtain ⟨l1, l2, e, -⟩ := List.lookup_eq_some_iff.1 hl
          rw [e]
          simp
        exact .inr ⟨v, rfl, this _ hm⟩
    rcases h0 with h0 | ⟨b, h0, h1, h2⟩
    · exact switch 210 h0 (by decide) (by decide)
    · exact switch b h0 h1 h2

theorem changed_look {cp k : Nat} (h : (cp, k) ∈ changed) : cp ≤ 0x10FFFF ∧ ∃ e, ucdEntries[k]? = some e ∧ getInternal cp = .ok e := by
  have h9 : k < 239 := Nat.le_of_ble_eq_true (List.all_eq_true.1 changed_check _ h)
  obtain ⟨⟨i, b⟩, h1, h2⟩ := List.mem_flatMap.1 h
  obtain ⟨s1, s2, s3⟩ := special_check _ h1
  simp only at s1 s2 s3 h2
  have e2 : ∃ B, ucdStageTwo[b]? = some B := by
    have : b < ucdStageTwo.length := by rw [sizes.2.1]; omega
    exact ⟨_, List.getElem?_eq_getElem this⟩
  obtain ⟨B, hB⟩ := e2
  rw [hB] at h2
  obtain ⟨⟨o, k'⟩, h3, h4⟩ := List.mem_map.1 h2
  simp only [Prod.mk.injEq] at h4
  obtain ⟨rfl, rfl⟩ := h4
  obtain ⟨s, h5, h6⟩ := List.mem_filterMap.1 h3
  rw [shifts_eq] at h5
  obtain ⟨o', h7, rfl⟩ := List.mem_map.1 h5
  have ho := List.mem_range.1 h7
  cases hp : plainK (byteAt B (8 * o')) with
  | true => rw [hp] at h6; simp at h6
  | false =>
    rw [hp] at h6
    simp only [cond_false, Option.some.injEq, Prod.mk.injEq] at h6
    obtain ⟨rfl, rfl⟩ := h6
    have e4 : 8 * o' / 8 = o' := by omega
    rw [e4]
    have e3 : ∃ e, ucdEntries[byteAt B (8 * o')]? = some e := by
      rw [← sizes.2.2] at h9
      exact ⟨_, List.getElem?_eq_getElem h9⟩
    obtain ⟨e, he⟩ := e3
    refine ⟨by omega, e, he, ?_⟩
    have d1 : (128 * i + o') / 128 = i := by omega
    have d2 : (128 * i + o') % 128 = o' := by omega
    refine internal_eq (b := b) (by omega) ?_ ?_ h9 he
    · rw [d1, stageOneValue, if_neg (by omega), if_pos s2, rd_eq s1]
    · rw [d2, two_of_block hB ho]

theorem folded_zero {cp : Nat} {e : UcdEntry} (h : cp ≤ 0x10FFFF) (h0 : e.offset = 0) : folded cp e = cp := by
  rw [folded, h0]
  omega

theorem find_simple (c : Nat) : (c, simpleFold c) ∈ specSimple ∨ (simpleFold c = c ∧ ∀ d, (c, d) ∉ specSimple) := by
  have hr := List.all_eq_true.1 range_check
  rw [simpleFold]
  cases h : simpleFolding.find? (fun r => r.has c) with
  | some r =>
    left
    have h1 := List.mem_of_find?_eq_some h
    have h2 := List.find?_some h
    have h3 := hr r h1
    unfold FoldRange.has at h2
    simp only [Bool.and_eq_true, decide_eq_true_eq] at h2 h3
    have h4 : r.first + (c - r.first) / r.step * r.step = c := by
      have := Nat.div_add_mod (c - r.first) r.step
      rw [Nat.mul_comm] at this
      omega
    refine List.mem_flatMap.2 ⟨r, h1, List.mem_map.2 ⟨(c - r.first) / r.step, List.mem_range.2 ?_, ?_⟩⟩
    · have := Nat.div_le_div_right (c := r.step) (show c - r.first ≤ r.last - r.first by omega)
      omega
    · rw [h4]
  | none =>
    right
    refine ⟨rfl, fun d hd => ?_⟩
    obtain ⟨r, h1, h2⟩ := List.mem_flatMap.1 hd
    obtain ⟨j, h3, h4⟩ := List.mem_map.1 h2
    simp only [Prod.mk.injEq] at h4
    have h5 := List.find?_eq_none.1 h r h1
    have h6 := hr r h1
    simp only [Bool.and_eq_true, decide_eq_true_eq] at h6
    have h7 := List.mem_range.1 h3
    have h8 : j * r.step ≤ r.last - r.first := by
      have := Nat.mul_le_mul_right r.step (show j ≤ (r.last - r.first) / r.step by omega)
      have := Nat.div_mul_le_self (r.last - r.first) r.step
      omega
    refine h5 ?_
    unfold FoldRange.has
    rw [← h4.1]
    simp only [Bool.and_eq_true, decide_eq_true_eq]
    refine ⟨⟨by omega, by omega⟩, ?_⟩
    rw [Nat.add_sub_cancel_left]
    exact Nat.mul_mod_left _ _

/-- A run of code points in the table. -/
structure RunAt (i : Nat) (l : List Nat) : Prop where
  some : l ≠ []
  at' : ∀ (j c : Nat), l[j]? = Option.some c → ucdRuns[i + j]? = Option.some c ∧ c ≠ 0
  stop : ucdRuns[i + l.length]? = Option.some 0

theorem runAt_of {e : UcdEntry} (h : e ∈ ucdEntries) (h0 : e.full ≠ 0) : RunAt e.full (runAt e.full) := by
  have h1 := List.all_eq_true.1 run_check _ h
  rw [Bool.or_eq_true, Bool.and_eq_true] at h1
  rcases h1 with h1 | ⟨h1, h2⟩
  · exact absurd (of_decide_eq_true h1) h0
  · refine ⟨?_, ?_, of_decide_eq_true h2⟩
    · intro he
      rw [he] at h1
      simp at h1
    · intro j c hj
      have hp : runAt e.full <+: ucdRuns.drop e.full := List.takeWhile_prefix _
      refine ⟨?_, ?_⟩
      · obtain ⟨t, ht⟩ := hp
        rw [← List.getElem?_drop, ← ht, List.getElem?_append_left (List.getElem?_eq_some_iff.1 hj).1]
        exact hj
      · have := List.all_eq_true.1 List.all_takeWhile _ (List.mem_of_getElem? hj)
        simpa using this

/-- The Unicode data of a code point is that of the specification. -/
theorem data (cp : Nat) (h : cp ≤ 0x10FFFF) : ∃ e ∈ ucdEntries, getInternal cp = .ok e ∧ folded cp e = simpleFold cp ∧
    (e.full = 0 → fullFold cp = [simpleFold cp]) ∧ (e.full ≠ 0 → RunAt e.full (fullFold cp)) := by
  obtain ⟨k, e, h1, h2, h3⟩ := look cp h
  have hm := List.mem_of_getElem? h2
  refine ⟨e, hm, h1, ?_, ?_, ?_⟩
  · rcases find_simple cp with h4 | ⟨h4, h5⟩
    · rw [← simple_check] at h4
      obtain ⟨⟨c, k'⟩, h6, h7⟩ := List.mem_filterMap.1 h4
      cases h8 : ucdEntries[k']? with
      | none => simp only [h8] at h7; simp at h7
      | some e' =>
        simp only [h8] at h7
        by_cases h9 : e'.offset = 0
        · rw [if_pos h9] at h7; simp at h7
        · rw [if_neg h9] at h7
          simp only [Option.some.injEq, Prod.mk.injEq] at h7
          obtain ⟨rfl, h7⟩ := h7
          obtain ⟨-, e'', g1, g2⟩ := changed_look h6
          rw [h8] at g1
          rw [h1] at g2
          cases g1
          cases g2
          exact h7
    · rw [h4]
      by_cases h6 : e.offset = 0
      · exact folded_zero h h6
      · exfalso
        rcases h3 with h3 | h3
        · exact h6 h3.2
        · refine h5 (folded cp e) ?_
          rw [← simple_check]
          refine List.mem_filterMap.2 ⟨_, h3, ?_⟩
          simp only [h2, if_neg h6]
  · intro h0
    rw [fullFold]
    cases hl : fullFolding.lookup cp with
    | none => rfl
    | some l =>
      exfalso
      have h4 : (cp, l) ∈ fullFolding := by
        obtain ⟨l1, l2, e, -⟩ := List.lookup_eq_some_iff.1 hl
        rw [e]
        simp
      rw [← full_check] at h4
      obtain ⟨⟨c, k'⟩, h6, h7⟩ := List.mem_filterMap.1 h4
      cases h8 : ucdEntries[k']? with
      | none => simp only [h8] at h7; simp at h7
      | some e' =>
        simp only [h8] at h7
        by_cases h9 : e'.full = 0
        · rw [if_pos h9] at h7; simp at h7
        · rw [if_neg h9] at h7
          simp only [Option.some.injEq, Prod.mk.injEq] at h7
          obtain ⟨rfl, h7⟩ := h7
          obtain ⟨-, e'', g1, g2⟩ := changed_look h6
          rw [h8] at g1
          rw [h1] at g2
          cases g1
          cases g2
          exact h9 h0
  · intro h0
    rcases h3 with h3 | h3
    · exact absurd h3.1 h0
    · have h4 : (cp, runAt e.full) ∈ fullFolding := by
        rw [← full_check]
        refine List.mem_filterMap.2 ⟨_, h3, ?_⟩
        simp only [h2, if_neg h0]
      have h5 : fullFold cp = runAt e.full := by
        rw [fullFold]
        cases hl : fullFolding.lookup cp with
        | none =>
          have := List.lookup_eq_none_iff.1 hl _ h4
          simp at this
        | some l =>
          have h4 : (cp, l) ∈ fullFolding := by
            obtain ⟨l1, l2, e, -⟩ := List.lookup_eq_some_iff.1 hl
            rw [e]
            simp
          rw [← full_check] at h4
          obtain ⟨⟨c, k'⟩, h6, h7⟩ := List.mem_filterMap.1 h4
          cases h8 : ucdEntries[k']? with
          | none => simp only [h8] at h7; simp at h7
          | some e' =>
            simp only [h8] at h7
            by_cases h9 : e'.full = 0
            · rw [if_pos h9] at h7; simp at h7
            · rw [if_neg h9] at h7
              simp only [Option.some.injEq, Prod.mk.injEq] at h7
              obtain ⟨rfl, h7⟩ := h7
              obtain ⟨-, e'', g1, g2⟩ := changed_look h6
              rw [h8] at g1
              rw [h1] at g2
              cases g1
              cases g2
              exact h7.symm
      rw [h5]
      exact runAt_of hm h0

end Tm.Uni
