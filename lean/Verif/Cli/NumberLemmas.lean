import Verif.Cli.Lemmas

/-! # Lemmas about the validators -/

namespace Tm.Cli

/-- A text does not begin with a digit. -/
def NoDigit (s : Str) : Prop := ∀ b t, s = b :: t → ¬ Digit b

theorem skipLoop_spec : ∀ s : Str, ∃ ds, s = ds ++ skipLoop s ∧ (∀ b ∈ ds, Digit b) ∧ NoDigit (skipLoop s)
  | [] => ⟨[], rfl, fun _ h => (nomatch h), fun _ _ h => nomatch h⟩
  | b :: s => by
    rw [skipLoop]
    by_cases hb : isDigit b = true
    · rw [if_pos hb]
      obtain ⟨ds, h1, h2, h3⟩ := skipLoop_spec s
      refine ⟨b :: ds, by rw [List.cons_append, ← h1], ?_, h3⟩
      intro c hc
      rcases List.mem_cons.1 hc with rfl | hc
      · exact (isDigit_iff _).1 hb
      · exact h2 c hc
    · rw [if_neg hb]
      refine ⟨[], rfl, fun _ h => (nomatch h), ?_⟩
      intro c t he
      cases he
      exact fun h => hb ((isDigit_iff _).2 h)

theorem skipLoop_digits {r : Str} (hr : NoDigit r) : ∀ {ds : Str}, (∀ b ∈ ds, Digit b) → skipLoop (ds ++ r) = r
  | [], _ => by
    cases r with
    | nil => rfl
    | cons c t => rw [List.nil_append, skipLoop, if_neg (fun h => hr c t rfl ((isDigit_iff _).1 h))]
  | b :: ds, h => by
    rw [List.cons_append, skipLoop, if_pos ((isDigit_iff _).2 (h b List.mem_cons_self))]
    exact skipLoop_digits hr (fun c hc => h c (List.mem_cons_of_mem _ hc))

theorem digit_deref {s : Str} : isDigit (deref s) = true ↔ ∃ b t, s = b :: t ∧ Digit b := by
  rw [isDigit_iff]
  cases s with
  | nil =>
    simp only [deref, List.headD_nil]
    exact ⟨fun h => absurd h (by unfold Digit; decide), fun ⟨_, _, h, _⟩ => nomatch h⟩
  | cons b t =>
    simp only [deref, List.headD_cons]
    exact ⟨fun h => ⟨b, t, rfl, h⟩, fun ⟨_, _, h, h'⟩ => by cases h; exact h'⟩

theorem skipDigits_some {s r : Str} (h : skipDigits s = some r) : ∃ ds, Digits ds ∧ s = ds ++ r ∧ NoDigit r := by
  unfold skipDigits at h
  split at h
  · rename_i hd
    obtain ⟨b, t, rfl, hb⟩ := digit_deref.1 hd
    cases h
    obtain ⟨ds, h1, h2, h3⟩ := skipLoop_spec t
    refine ⟨b :: ds, ⟨fun h => (nomatch h), ?_⟩, congrArg (b :: ·) h1, h3⟩
    intro c hc
    rcases List.mem_cons.1 hc with rfl | hc
    · exact hb
    · exact h2 c hc
  · cases h

theorem skipDigits_digits {ds r : Str} (hd : Digits ds) (hr : NoDigit r) : skipDigits (ds ++ r) = some r := by
  obtain ⟨hne, hd⟩ := hd
  cases ds with
  | nil => exact absurd rfl hne
  | cons b ds =>
    unfold skipDigits
    rw [List.cons_append, if_pos (digit_deref.2 ⟨b, ds ++ r, rfl, hd b List.mem_cons_self⟩)]
    exact congrArg some (skipLoop_digits hr (fun c hc => hd c (List.mem_cons_of_mem _ hc)))

theorem skipDigits_none {s : Str} (hs : NoDigit s) : skipDigits s = none := by
  unfold skipDigits
  rw [if_neg]
  intro h
  obtain ⟨b, t, he, hb⟩ := digit_deref.1 h
  exact hs b t he hb

theorem noDigit_nil : NoDigit [] := fun _ _ h => nomatch h

/-- Lines 334-335 and 339-340. -/
theorem digits_iff {s : Str} (hc : CString s) : (match skipDigits s with
    | none => false
    | some r => decide (deref r = 0)) = true ↔ Digits s := by
  constructor
  · intro h
    cases hs : skipDigits s with
    | none => rw [hs] at h; exact nomatch h
    | some r =>
      rw [hs] at h
      obtain ⟨ds, h1, rfl, _⟩ := skipDigits_some hs
      have : r = [] := (deref_zero hc.append_right).1 (of_decide_eq_true h)
      rw [this, List.append_nil]
      exact h1
  · intro h
    have := skipDigits_digits h noDigit_nil
    rw [List.append_nil] at this
    rw [this]
    rfl

theorem Digits.ne {s : Str} (h : Digits s) : deref s ≠ 0 := by
  obtain ⟨hne, hd⟩ := h
  cases s with
  | nil => exact absurd rfl hne
  | cons b t =>
    intro hz
    have : b = 0 := hz
    exact absurd (this ▸ hd b List.mem_cons_self) (by unfold Digit; decide)

theorem argUint_iff {s : Str} (hc : CString s) : argUint s = true ↔ Digits s := by
  unfold argUint
  by_cases hz : deref s = 0
  · rw [if_pos hz]
    exact ⟨fun h => (nomatch h), fun h => absurd hz h.ne⟩
  · rw [if_neg hz]
    exact digits_iff hc

/-- A text without its sign. -/
theorem sign_cases {s : Str} (hc : CString s) : ∃ sign t, (sign = [] ∨ sign = [0x2D]) ∧ s = sign ++ t ∧
    (if deref s = 0x2D then s.tail else s) = t ∧ CString t ∧ (sign = [] → ∀ u, t ≠ 0x2D :: u) := by
  by_cases h : deref s = 0x2D
  · obtain ⟨t, rfl⟩ := (deref_eq (by decide)).1 h
    exact ⟨[0x2D], t, Or.inr rfl, rfl, by rw [if_pos h]; rfl, hc.tail, fun h => (nomatch h)⟩
  · exact ⟨[], s, Or.inl rfl, rfl, by rw [if_neg h], hc, fun _ u hu => h (by rw [hu]; rfl)⟩

theorem sign_unique {sign t sign' t' : Str} (hs : sign = [] ∨ sign = [0x2D]) (hs' : sign' = [] ∨ sign' = [0x2D])
    (he : sign ++ t = sign' ++ t') (h : ∀ u, t ≠ 0x2D :: u) (h' : ∀ u, t' ≠ 0x2D :: u) : t = t' := by
  rcases hs with rfl | rfl <;> rcases hs' with rfl | rfl
  · exact he
  · exact absurd he (h _)
  · exact absurd he.symm (h' _)
  · exact (List.cons.inj he).2

theorem sign_skip {sign t : Str} (hs : sign = [] ∨ sign = [0x2D]) (h : ∀ u, t ≠ 0x2D :: u) :
    (if deref (sign ++ t) = 0x2D then (sign ++ t).tail else sign ++ t) = t := by
  rcases hs with rfl | rfl
  · rw [List.nil_append, if_neg]
    intro hd
    obtain ⟨u, hu⟩ := (deref_eq (by decide)).1 hd
    exact h u hu
  · rw [if_pos (show deref ([0x2D] ++ t) = 0x2D from rfl)]; rfl

theorem digits_dash {s r : Str} (h : Digits s) : ∀ u, s ++ r ≠ 0x2D :: u := by
  intro u hu
  obtain ⟨hne, hd⟩ := h
  cases s with
  | nil => exact hne rfl
  | cons b t =>
    cases hu
    exact absurd (hd _ List.mem_cons_self) (by unfold Digit; decide)

theorem argInt_iff {s : Str} (hc : CString s) : argInt s = true ↔ ∃ sign ds, (sign = [] ∨ sign = [0x2D]) ∧ Digits ds ∧ s = sign ++ ds := by
  have key : argInt s = true ↔ Digits (if deref s = 0x2D then s.tail else s) := by
    obtain ⟨sign, t, h1, h2, h3, h4, h5⟩ := sign_cases hc
    unfold argInt
    simp only
    rw [h3]
    by_cases hz : deref s = 0
    · rw [if_pos hz]
      have hs : s = [] := (deref_zero hc).1 hz
      refine ⟨fun h => (nomatch h), fun h => ?_⟩
      rw [hs] at h2
      have : t = [] := by
        cases sign with
        | nil => exact h2.symm
        | cons _ _ => exact nomatch h2
      exact absurd this h.1
    · rw [if_neg hz]
      by_cases hz' : deref t = 0
      · rw [if_pos hz']
        exact ⟨fun h => (nomatch h), fun h => absurd hz' h.ne⟩
      · rw [if_neg hz']
        exact digits_iff h4
  rw [key]
  constructor
  · intro h
    obtain ⟨sign, t, h1, h2, h3, h4, h5⟩ := sign_cases hc
    exact ⟨sign, t, h1, h3 ▸ h, h2⟩
  · rintro ⟨sign, ds, h1, h2, rfl⟩
    rw [sign_skip h1 (fun u hu => digits_dash (r := []) h2 u (by rw [List.append_nil]; exact hu))]
    exact h2

/-- Lines 364-370. -/
theorem argExponent_iff {s : Str} (hc : CString s) : argExponent s = true ↔ Maybe Exponent s := by
  unfold argExponent
  by_cases he : deref s = 0x65 ∨ deref s = 0x45
  · rw [if_pos (by simpa using he)]
    have : ∃ e t, (e = 0x65 ∨ e = 0x45) ∧ s = e :: t := by
      rcases he with he | he
      · obtain ⟨t, ht⟩ := (deref_eq (by decide)).1 he; exact ⟨_, t, Or.inl rfl, ht⟩
      · obtain ⟨t, ht⟩ := (deref_eq (by decide)).1 he; exact ⟨_, t, Or.inr rfl, ht⟩
    obtain ⟨e, t, hee, rfl⟩ := this
    change (match skipDigits (if deref t = 0x2D || deref t = 0x2B then t.tail else t) with
      | none => false
      | some s => decide (deref s = 0)) = true ↔ _
    have hct : CString t := hc.tail
    have hsk : ∀ u, CString u → ((match skipDigits u with
        | none => false
        | some s => decide (deref s = 0)) = true ↔ Digits u) := fun u hu => digits_iff hu
    by_cases hs : deref t = 0x2D ∨ deref t = 0x2B
    · rw [if_pos (by simpa using hs)]
      have : ∃ c u, (c = 0x2B ∨ c = 0x2D) ∧ t = c :: u := by
        rcases hs with hs | hs
        · obtain ⟨u, hu⟩ := (deref_eq (by decide)).1 hs; exact ⟨_, u, Or.inr rfl, hu⟩
        · obtain ⟨u, hu⟩ := (deref_eq (by decide)).1 hs; exact ⟨_, u, Or.inl rfl, hu⟩
      obtain ⟨c, u, hcc, rfl⟩ := this
      rw [List.tail_cons, hsk u hct.tail]
      constructor
      · intro h
        exact Or.inr ⟨e, [c], u, hee, by rcases hcc with rfl | rfl <;> simp, h, rfl⟩
      · rintro (h | ⟨e', sign, ds, h1, h2, h3, h4⟩)
        · exact nomatch h
        · obtain ⟨_, h4⟩ := List.cons.inj h4
          rcases h2 with rfl | rfl | rfl
          · rw [List.nil_append] at h4
            have hcd : Digit c := h3.2 c (by rw [← h4]; exact List.mem_cons_self)
            rcases hcc with rfl | rfl <;> exact absurd hcd (by unfold Digit; decide)
          · obtain ⟨_, rfl⟩ := List.cons.inj h4; exact h3
          · obtain ⟨_, rfl⟩ := List.cons.inj h4; exact h3
    · rw [if_neg (by simpa using hs), hsk t hct]
      constructor
      · intro h
        exact Or.inr ⟨e, [], t, hee, Or.inl rfl, h, rfl⟩
      · rintro (h | ⟨e', sign, ds, h1, h2, h3, h4⟩)
        · exact nomatch h
        · obtain ⟨_, h4⟩ := List.cons.inj h4
          rcases h2 with rfl | rfl | rfl
          · rw [h4]; exact h3
          · exact absurd (Or.inr (by rw [h4]; rfl)) hs
          · exact absurd (Or.inl (by rw [h4]; rfl)) hs
  · rw [if_neg (by simpa using he), decide_eq_true_eq, deref_zero hc]
    constructor
    · exact Or.inl
    · rintro (h | ⟨e, sign, ds, h1, _, _, h4⟩)
      · exact h
      · refine absurd ?_ he
        rcases h1 with rfl | rfl
        · exact Or.inl (by rw [h4]; rfl)
        · exact Or.inr (by rw [h4]; rfl)

theorem exponent_noDigit {s : Str} (h : Maybe Exponent s) : NoDigit s := by
  intro b t he hb
  rcases h with rfl | ⟨e, sign, ds, h1, _, _, rfl⟩
  · exact nomatch he
  · cases he
    rcases h1 with rfl | rfl <;> exact absurd hb (by unfold Digit; decide)

/-- Lines 357-370. -/
theorem argFraction_iff {s : Str} (hc : CString s) :
    argFraction s = true ↔ ∃ f e, Maybe Fraction f ∧ Maybe Exponent e ∧ s = f ++ e := by
  unfold argFraction
  by_cases hz : deref s = 0
  · rw [if_pos hz]
    exact ⟨fun _ => ⟨[], [], Or.inl rfl, Or.inl rfl, (deref_zero hc).1 hz⟩, fun _ => rfl⟩
  · rw [if_neg hz]
    by_cases hd : deref s = 0x2E
    · rw [if_pos hd]
      obtain ⟨t, rfl⟩ := (deref_eq (by decide)).1 hd
      rw [List.tail_cons]
      constructor
      · intro h
        cases hs : skipDigits t with
        | none => rw [hs] at h; exact nomatch h
        | some r =>
          rw [hs] at h
          simp only at h
          obtain ⟨ds, h1, rfl, _⟩ := skipDigits_some hs
          refine ⟨0x2E :: ds, r, Or.inr ⟨ds, h1, rfl⟩, ?_, rfl⟩
          have hcr : CString r := hc.tail.append_right
          by_cases hr : deref r = 0
          · exact Or.inl ((deref_zero hcr).1 hr)
          · rw [if_neg hr] at h; exact (argExponent_iff hcr).1 h
      · rintro ⟨f, e, h1, h2, h3⟩
        rcases h1 with rfl | ⟨ds, h1, rfl⟩
        · rcases h2 with rfl | ⟨e', _, _, h4, _, _, rfl⟩
          · exact nomatch h3
          · obtain ⟨h3, _⟩ := List.cons.inj h3
            rcases h4 with rfl | rfl <;> exact absurd h3 (by decide)
        · obtain ⟨_, rfl⟩ := List.cons.inj h3
          rw [show List.append ds e = ds ++ e from rfl, skipDigits_digits h1 (exponent_noDigit h2)]
          simp only
          by_cases hr : deref e = 0
          · rw [if_pos hr]
          · rw [if_neg hr]; exact (argExponent_iff hc.tail.append_right).2 h2
    · rw [if_neg hd, argExponent_iff hc]
      constructor
      · intro h; exact ⟨[], s, Or.inl rfl, h, rfl⟩
      · rintro ⟨f, e, h1, h2, rfl⟩
        rcases h1 with rfl | ⟨ds, _, rfl⟩
        · exact h2
        · exact absurd rfl hd

theorem fraction_noDigit {f e : Str} (h1 : Maybe Fraction f) (h2 : Maybe Exponent e) : NoDigit (f ++ e) := by
  rcases h1 with rfl | ⟨ds, _, rfl⟩
  · exact exponent_noDigit h2
  · intro b t he hb
    cases he
    exact absurd hb (by unfold Digit; decide)

/-- Lines 348-370. -/
theorem argWhole_iff {s : Str} (hc : CString s) : (if deref s = 0 then false
    else if deref s = 0x30 then argFraction s.tail
    else if 0x31 ≤ (deref s).toNat && (deref s).toNat ≤ 0x39 then
      match skipDigits s.tail with
      | none => argFraction s.tail
      | some s => argFraction s
    else false) = true ↔ ∃ w f e, Whole w ∧ Maybe Fraction f ∧ Maybe Exponent e ∧ s = w ++ (f ++ e) := by
  cases s with
  | nil =>
    rw [if_pos (show deref [] = 0 from rfl)]
    refine ⟨fun h => (nomatch h), ?_⟩
    rintro ⟨w, f, e, h1, _, _, h4⟩
    cases w with
    | nil => exact absurd rfl h1.1.1
    | cons _ _ => exact nomatch h4
  | cons b t =>
    have hb0 : ¬ deref (b :: t) = 0 := fun h => hc (h ▸ List.mem_cons_self)
    rw [if_neg hb0]
    change (if b = 0x30 then argFraction t
      else if 0x31 ≤ b.toNat && b.toNat ≤ 0x39 then
        match skipDigits t with
        | none => argFraction t
        | some s => argFraction s
      else false) = true ↔ _
    by_cases h30 : b = 0x30
    · subst h30
      rw [if_pos rfl, argFraction_iff hc.tail]
      have hw : Whole [0x30] := ⟨⟨fun h => (nomatch h), fun c hcm => by rw [List.mem_singleton.1 hcm]; unfold Digit; decide⟩, Or.inl rfl⟩
      constructor
      · rintro ⟨f, e, h1, h2, rfl⟩
        exact ⟨[0x30], f, e, hw, h1, h2, rfl⟩
      · rintro ⟨w, f, e, h1, h2, h3, h4⟩
        rcases h1.2 with rfl | hno
        · exact ⟨f, e, h2, h3, (List.cons.inj h4).2⟩
        · cases w with
          | nil => exact absurd rfl h1.1.1
          | cons c w => exact absurd (by rw [(List.cons.inj h4).1]) (hno w)
    · rw [if_neg h30]
      by_cases hdig : Digit b
      · have hr : (decide (0x31 ≤ b.toNat) && decide (b.toNat ≤ 0x39)) = true := by
          obtain ⟨h1, h2⟩ := hdig
          have h1 : 0x30 ≤ b.toNat := h1
          have h2 : b.toNat ≤ 0x39 := h2
          have h3 : b.toNat ≠ 0x30 := fun h => h30 (BitVec.eq_of_toNat_eq h)
          simp only [Bool.and_eq_true, decide_eq_true_eq]
          omega
        rw [if_pos hr]
        obtain ⟨ds, h1, h2, h3⟩ := skipLoop_spec t
        have hds : Digits (b :: ds) := ⟨fun h => (nomatch h), fun c hcm => by
          rcases List.mem_cons.1 hcm with rfl | hcm
          · exact hdig
          · exact h2 c hcm⟩
        have hres : (match skipDigits t with
            | none => argFraction t
            | some s => argFraction s) = argFraction (skipLoop t) := by
          cases ds with
          | nil =>
            rw [List.nil_append] at h1
            rw [← h1] at h3 ⊢
            rw [skipDigits_none h3]
          | cons d ds =>
            have : skipDigits t = some (skipLoop t) := by
              conv => lhs; rw [h1]
              exact skipDigits_digits ⟨fun h => (nomatch h), h2⟩ h3
            rw [this]
        rw [hres, argFraction_iff (CString.append_right (a := ds) (h1 ▸ hc.tail))]
        constructor
        · rintro ⟨f, e, h4, h5, h6⟩
          refine ⟨b :: ds, f, e, ⟨hds, Or.inr ?_⟩, h4, h5, ?_⟩
          · intro u hu; exact h30 (List.cons.inj hu).1
          · rw [List.cons_append, ← h6, ← h1]
        · rintro ⟨w, f, e, h4, h5, h6, h7⟩
          refine ⟨f, e, h5, h6, ?_⟩
          cases w with
          | nil => exact absurd rfl h4.1.1
          | cons c w =>
            have h8 : t = w ++ (f ++ e) := (List.cons.inj h7).2
            rw [h8]
            exact skipLoop_digits (fraction_noDigit h5 h6) (fun d hd => h4.1.2 d (List.mem_cons_of_mem _ hd))
      · have hr : ¬ (decide (0x31 ≤ b.toNat) && decide (b.toNat ≤ 0x39)) = true := by
          intro h
          simp only [Bool.and_eq_true, decide_eq_true_eq] at h
          exact hdig ⟨show 0x30 ≤ b.toNat by omega, show b.toNat ≤ 0x39 from h.2⟩
        rw [if_neg hr]
        refine ⟨fun h => (nomatch h), ?_⟩
        rintro ⟨w, f, e, h1, _, _, h4⟩
        cases w with
        | nil => exact absurd rfl h1.1.1
        | cons c w => exact absurd ((List.cons.inj h4).1 ▸ h1.1.2 c List.mem_cons_self) hdig

theorem argFloat_iff {s : Str} (hc : CString s) : argFloat s = true ↔ Float s := by
  have key : argFloat s = true ↔
      ∃ w f e, Whole w ∧ Maybe Fraction f ∧ Maybe Exponent e ∧ (if deref s = 0x2D then s.tail else s) = w ++ (f ++ e) := by
    obtain ⟨sign, t, h1, h2, h3, h4, h5⟩ := sign_cases hc
    unfold argFloat
    simp only
    rw [h3]
    by_cases hz : deref s = 0
    · rw [if_pos hz]
      have hs : s = [] := (deref_zero hc).1 hz
      rw [hs] at h2
      have ht : t = [] := by
        cases sign with
        | nil => exact h2.symm
        | cons _ _ => exact nomatch h2
      refine ⟨fun h => (nomatch h), ?_⟩
      rintro ⟨w, f, e, h6, _, _, h7⟩
      cases w with
      | nil => exact absurd rfl h6.1.1
      | cons _ _ => rw [ht] at h7; exact nomatch h7
    · rw [if_neg hz]
      exact argWhole_iff h4
  rw [key]
  constructor
  · rintro ⟨w, f, e, h1, h2, h3, h4⟩
    obtain ⟨sign, t, h5, h6, h7, _, _⟩ := sign_cases hc
    rw [h7] at h4
    exact ⟨sign, w, f, e, h5, h1, h2, h3, by rw [h6, h4]; simp⟩
  · rintro ⟨sign, w, f, e, h5, h1, h2, h3, rfl⟩
    refine ⟨w, f, e, h1, h2, h3, ?_⟩
    have : sign ++ w ++ f ++ e = sign ++ (w ++ (f ++ e)) := by simp
    rw [this]
    exact sign_skip h5 (digits_dash h1.1)

end Tm.Cli
