import Verif.Uni.FoldLemmas
/-!
# Folding twice

Generated lists, and checks of all pairs of ranges.
-/
namespace Tm.Uni

/-- What the ranges of the simple folding are folded to: the first and the last one, and whether all of them are even or all odd. -/
def foldTargets : List (Nat × Nat × Bool) := [
  (97, 122, false), (956, 956, true), (224, 246, false), (248, 254, false), (257, 303, true), (307, 311, true), (314, 328, true), (331, 375, true),
  (255, 255, true), (378, 382, true), (115, 115, true), (595, 595, true), (387, 389, true), (596, 596, true), (392, 392, true), (598, 599, false),
  (396, 396, true), (477, 477, true), (601, 601, true), (603, 603, true), (402, 402, true), (608, 608, true), (611, 611, true), (617, 617, true),
  (616, 616, true), (409, 409, true), (623, 623, true), (626, 626, true), (629, 629, true), (417, 421, true), (640, 640, true), (424, 424, true),
  (643, 643, true), (429, 429, true), (648, 648, true), (432, 432, true), (650, 651, false), (436, 438, true), (658, 658, true), (441, 441, true),
  (445, 445, true), (454, 454, true), (454, 454, true), (457, 457, true), (457, 457, true), (460, 460, true), (460, 476, true), (479, 495, true),
  (499, 499, true), (499, 501, true), (405, 405, true), (447, 447, true), (505, 543, true), (414, 414, true), (547, 563, true), (11365, 11365, true),
  (572, 572, true), (410, 410, true), (11366, 11366, true), (578, 578, true), (384, 384, true), (649, 649, true), (652, 652, true), (583, 591, true),
  (953, 953, true), (881, 883, true), (887, 887, true), (1011, 1011, true), (940, 940, true), (941, 943, false), (972, 972, true), (973, 974, false),
  (945, 961, false), (963, 971, false), (963, 963, true), (983, 983, true), (946, 946, true), (952, 952, true), (966, 966, true), (960, 960, true),
  (985, 1007, true), (954, 954, true), (961, 961, true), (952, 952, true), (949, 949, true), (1016, 1016, true), (1010, 1010, true), (1019, 1019, true),
  (891, 893, false), (1104, 1119, false), (1072, 1103, false), (1121, 1153, true), (1163, 1215, true), (1231, 1231, true), (1218, 1230, true), (1233, 1327, true),
  (1377, 1414, false), (11520, 11557, false), (11559, 11559, true), (11565, 11565, true), (5104, 5109, false), (1074, 1074, true), (1076, 1076, true), (1086, 1086, true),
  (1089, 1090, false), (1090, 1090, true), (1098, 1098, true), (1123, 1123, true), (42571, 42571, true), (4304, 4346, false), (4349, 4351, false), (7681, 7829, true),
  (7777, 7777, true), (223, 223, true), (7841, 7935, true), (7936, 7943, false), (7952, 7957, false), (7968, 7975, false), (7984, 7991, false), (8000, 8005, false),
  (8017, 8023, true), (8032, 8039, false), (8064, 8071, false), (8080, 8087, false), (8096, 8103, false), (8112, 8113, false), (8048, 8049, false), (8115, 8115, true),
  (953, 953, true), (8050, 8053, false), (8131, 8131, true), (8144, 8145, false), (8054, 8055, false), (8160, 8161, false), (8058, 8059, false), (8165, 8165, true),
  (8056, 8057, false), (8060, 8061, false), (8179, 8179, true), (969, 969, true), (107, 107, true), (229, 229, true), (8526, 8526, true), (8560, 8575, false),
  (8580, 8580, true), (9424, 9449, false), (11312, 11358, false), (11361, 11361, true), (619, 619, true), (7549, 7549, true), (637, 637, true), (11368, 11372, true),
  (593, 593, true), (625, 625, true), (592, 592, true), (594, 594, true), (11379, 11379, true), (11382, 11382, true), (575, 576, false), (11393, 11491, true),
  (11500, 11502, true), (11507, 11507, true), (42561, 42605, true), (42625, 42651, true), (42787, 42799, true), (42803, 42863, true), (42874, 42876, true), (7545, 7545, true),
  (42879, 42887, true), (42892, 42892, true), (613, 613, true), (42897, 42899, true), (42903, 42921, true), (614, 614, true), (604, 604, true), (609, 609, true),
  (620, 620, true), (618, 618, true), (670, 670, true), (647, 647, true), (669, 669, true), (43859, 43859, true), (42933, 42943, true), (42947, 42947, true),
  (42900, 42900, true), (642, 642, true), (7566, 7566, true), (42952, 42954, true), (42998, 42998, true), (5024, 5103, false), (65345, 65370, false), (66600, 66639, false),
  (66776, 66811, false), (68800, 68850, false), (71872, 71903, false), (93792, 93823, false), (125218, 125251, false)]

/-- The code points in full foldings. -/
def fullElements : List Nat := [97, 102, 104, 105, 106, 108, 110, 115, 116, 119, 121, 700, 702, 768, 769, 775, 776, 778, 780, 787, 817, 834, 940, 942, 945, 951, 953, 961, 965, 969, 974, 1381, 1387, 1389, 1396, 1398, 1406, 1410, 7936, 7937, 7938, 7939, 7940, 7941, 7942, 7943, 7968, 7969, 7970, 7971, 7972, 7973, 7974, 7975, 8032, 8033, 8034, 8035, 8036, 8037, 8038, 8039, 8048, 8052, 8060]

theorem targets_eq : simpleFolding.map (fun r => ((r.first + r.delta).toNat, (r.last + r.delta).toNat, r.first == r.last || r.step % 2 == 0)) = foldTargets := by decide +kernel

theorem ranges_ok : ∀ r ∈ simpleFolding, r.first ≤ r.last ∧ 0 ≤ (r.first : Int) + r.delta ∧ r.step ≠ 0 := by decide +kernel

/-- Whether a range has none of the targets in it. -/
def apart (t : Nat × Nat × Bool) (r : FoldRange) : Bool :=
  Nat.blt t.2.1 r.first || (Nat.blt r.last t.1 || (t.2.2 && (Nat.beq (r.step % 2) 0 && !Nat.beq (t.1 % 2) (r.first % 2))))

theorem apart_check : (foldTargets.all fun t => simpleFolding.all fun r => apart t r) = true := by decide +kernel

/-- `FoldRange.has`, for fast evaluation. -/
def FoldRange.hasB (r : FoldRange) (c : Nat) : Bool := Nat.ble r.first c && (Nat.ble c r.last && Nat.beq ((c - r.first) % r.step) 0)

theorem hasB_eq (r : FoldRange) (c : Nat) : r.hasB c = r.has c := by
  rw [Bool.eq_iff_iff]
  simp [FoldRange.has, FoldRange.hasB, Nat.ble_eq, Nat.beq_eq, and_assoc]

theorem elements_mem : (fullFolding.all fun p => p.2.all fun x => fullElements.any fun y => Nat.beq x y) = true := by decide +kernel

theorem elements_simple : (fullElements.all fun x => simpleFolding.all fun r => !r.hasB x) = true := by decide +kernel

theorem elements_full : (fullElements.all fun x => fullFolding.all fun p => !Nat.beq x p.1) = true := by decide +kernel

/-- Targets of the simple folding that have a full folding come from code points that have one. -/
theorem keys_check : (fullFolding.all fun p => simpleFolding.all fun r => !r.hasB ((p.1 : Int) - r.delta).toNat || fullFolding.any fun q => Nat.beq q.1 ((p.1 : Int) - r.delta).toNat) = true := by
  decide +kernel


theorem has_iff (r : FoldRange) (c : Nat) : r.has c = true ↔ r.first ≤ c ∧ c ≤ r.last ∧ r.step ∣ c - r.first := by
  simp [FoldRange.has, Nat.dvd_iff_mod_eq_zero, and_assoc]

theorem targets_apart {r r' : FoldRange} (hr : r ∈ simpleFolding) (hr' : r' ∈ simpleFolding) {c : Nat} (h : r.has c = true) :
    r'.has ((c : Int) + r.delta).toNat = false := by
  have hm : ((r.first + r.delta).toNat, (r.last + r.delta).toNat, r.first == r.last || r.step % 2 == 0) ∈ foldTargets := by
    rw [← targets_eq]
    exact List.mem_map.2 ⟨r, hr, rfl⟩
  have h1 := List.all_eq_true.1 (List.all_eq_true.1 apart_check _ hm) r' hr'
  obtain ⟨g1, g2, g3⟩ := ranges_ok r hr
  obtain ⟨k1, k2, k3⟩ := (has_iff _ _).1 h
  rw [Bool.eq_false_iff]
  intro h'
  obtain ⟨m1, m2, m3⟩ := (has_iff _ _).1 h'
  simp only [apart, Bool.or_eq_true, Bool.and_eq_true, Bool.not_eq_true', Nat.blt_eq, Nat.beq_eq, beq_iff_eq] at h1
  rcases h1 with h1 | h1 | ⟨h2, h3, h4⟩
  · omega
  · omega
  · have h5 : ¬ (r.first + r.delta).toNat % 2 = r'.first % 2 := by
      intro h
      rw [h] at h4
      simp at h4
    have h6 : 2 ∣ ((c : Int) + r.delta).toNat - r'.first := Nat.dvd_trans (Nat.dvd_of_mod_eq_zero h3) m3
    have h7 : 2 ∣ c - r.first := by
      rcases h2 with h2 | h2
      · rw [show c - r.first = 0 by omega]
        exact Nat.dvd_zero _
      · exact Nat.dvd_trans (Nat.dvd_of_mod_eq_zero h2) k3
    omega

theorem find_none {x : Nat} (h : ∀ r ∈ simpleFolding, r.has x = false) : simpleFold x = x := by
  rw [simpleFold, List.find?_eq_none.2 fun r hr => by rw [h r hr]; exact Bool.false_ne_true]

theorem lookup_none {x : Nat} (h : ∀ p ∈ fullFolding, p.1 ≠ x) : fullFolding.lookup x = none := by
  cases e : fullFolding.lookup x with
  | none => rfl
  | some v => exact absurd rfl (h (x, v) (lookup_mem e))

theorem lookup_some {l : List (Nat × List Nat)} {x : Nat} (h : ∃ p ∈ l, p.1 = x) : l.lookup x ≠ none := by
  obtain ⟨p, hp, rfl⟩ := h
  induction l with
  | nil => exact absurd hp (by simp)
  | cons q l ih =>
    rw [List.lookup_cons]
    cases e : p.1 == q.1 with
    | true => simp
    | false =>
      rcases List.mem_cons.1 hp with rfl | hp
      · simp at e
      · exact ih hp

theorem simpleFold_stable (c : Nat) : simpleFold (simpleFold c) = simpleFold c ∧ (simpleFold c ≠ c → fullFolding.lookup c = none → fullFold (simpleFold c) = [simpleFold c]) := by
  cases h : simpleFolding.find? (fun r => r.has c) with
  | none =>
    have e : simpleFold c = c := by rw [simpleFold, h]
    rw [e]
    exact ⟨e, fun h _ => absurd rfl h⟩
  | some r =>
    have e : simpleFold c = ((c : Int) + r.delta).toNat := by rw [simpleFold, h]
    have hm := List.mem_of_find?_eq_some h
    have hh := List.find?_some h
    have h1 : simpleFold (simpleFold c) = simpleFold c := by
      refine find_none fun r' hr' => ?_
      rw [e]
      exact targets_apart hm hr' hh
    refine ⟨h1, fun _ h0 => ?_⟩
    have h2 : fullFolding.lookup (simpleFold c) = none := by
      refine lookup_none fun p hp hx => ?_
      have h3 := List.all_eq_true.1 (List.all_eq_true.1 keys_check p hp) r hm
      obtain ⟨g1, g2, g3⟩ := ranges_ok r hm
      obtain ⟨k1, k2, k3⟩ := (has_iff _ _).1 hh
      have h4 : ((p.1 : Int) - r.delta).toNat = c := by rw [hx, e]; omega
      rw [h4, hasB_eq, hh] at h3
      simp only [Bool.not_true, Bool.false_or, List.any_eq_true, Nat.beq_eq] at h3
      exact lookup_some h3 h0
    rw [fullFold, h2, h1]

theorem fullFold_stable (c : Nat) : ∀ x ∈ fullFold c, fullFold x = [x] := by
  intro x hx
  cases h : fullFolding.lookup c with
  | none =>
    have e : fullFold c = [simpleFold c] := by rw [fullFold, h]
    rw [e] at hx
    obtain rfl := List.mem_singleton.1 hx
    by_cases hc : simpleFold c = c
    · rw [hc, e, hc]
    · exact (simpleFold_stable c).2 hc h
  | some v =>
    have e : fullFold c = v := by rw [fullFold, h]
    rw [e] at hx
    have h1 := List.all_eq_true.1 (List.all_eq_true.1 elements_mem _ (lookup_mem h)) x hx
    simp only [List.any_eq_true, Nat.beq_eq] at h1
    obtain ⟨y, h2, rfl⟩ := h1
    have h3 := List.all_eq_true.1 elements_simple x h2
    have h4 := List.all_eq_true.1 elements_full x h2
    have h5 : simpleFold x = x := find_none fun r hr => by
      have := List.all_eq_true.1 h3 r hr
      rw [hasB_eq] at this
      simpa using this
    have h6 : fullFolding.lookup x = none := lookup_none fun p hp hx => by
      have := List.all_eq_true.1 h4 p hp
      rw [hx] at this
      simp at this
    rw [fullFold, h6, h5]

theorem foldedSimple_stable (cs : List Nat) : foldedSimple (foldedSimple cs) = foldedSimple cs := by
  rw [foldedSimple, foldedSimple, List.map_map]
  exact List.map_congr_left fun c _ => (simpleFold_stable c).1

theorem foldedFull_stable (cs : List Nat) : foldedFull (foldedFull cs) = foldedFull cs := by
  have key : ∀ l : List Nat, (∀ x ∈ l, fullFold x = [x]) → foldedFull l = l := by
    intro l
    induction l with
    | nil => intro _; rfl
    | cons c l ih =>
      intro h
      rw [foldedFull, List.flatMap_cons, h c (by simp)]
      have := ih fun x hx => h x (by simp [hx])
      rw [foldedFull] at this
      rw [this]
      rfl
  refine key _ fun x hx => ?_
  obtain ⟨c, h1, h2⟩ := List.mem_flatMap.1 hx
  exact fullFold_stable c x h2

end Tm.Uni
