import Verif.Xml.SoundLemmas

namespace Tm.Xml

open Tm.Uni (utf8 encode Scalar Scalars WellFormed)

/-- A text of characters that need no escaping. -/
def PlainText (t : List Nat) : Prop := ∀ c ∈ t, XmlChar c ∧ c ≠ 0x26 ∧ c ≠ 0x3C ∧ c ≠ 0x5D

theorem PlainText.tail {c : Nat} {t : List Nat} (h : PlainText (c :: t)) : PlainText t :=
  fun x hx => h x (List.mem_cons_of_mem _ hx)

theorem step_plain (f : Flags) (after : List Byte) (u : Unesc) {c : Nat} {t : List Nat} (h : PlainText (c :: t)) :
    unescStep f after u c = plain f after u c := by
  obtain ⟨h1, h2, h3, h4⟩ := h c List.mem_cons_self
  unfold unescStep
  rw [if_neg (by unfold XmlChar at h1; omega), if_neg h2, if_neg h3, if_neg h4]

theorem take_utf8 (c : Nat) (s : List Byte) : List.take ((utf8 c ++ s).length - s.length) (utf8 c ++ s) = utf8 c := by
  rw [List.length_append, Nat.add_sub_cancel, List.take_left]

theorem plain_core (f : Flags) (after : List Byte) (u : Unesc) (c : Nat) (s : List Byte) (last : Bool) (hc : XmlChar c)
    (hu : u.core = ⟨s, utf8 c ++ s, last⟩) :
    plain f after u c =
      (placeCore f after ⟨s, utf8 c ++ s, last⟩ c (utf8 c)).map fun p => some ((emit u p.2).put p.1) := by
  unfold plain
  rw [if_pos (validXml_iff.mpr hc), core_prev hu, core_cur hu]
  dsimp only
  rw [take_utf8, place_core, hu]
  cases placeCore f after ⟨s, utf8 c ++ s, last⟩ c (utf8 c) <;> rfl

theorem runs_reduce {f : Flags} (hr : f.reduce = true) (after : List Byte) (t : List Nat) (ht : PlainText t)
    (hn : f.newlines = true ∨ 0x0D ∉ t) (last : Bool) :
    ∃ ps, Runs (unescStep f after) (start (encode utf8 t) last) .done ps ∧ ps.length = t.length ∧
      ps.flatten = encode utf8 (collapse (if last then t.dropWhile (· ≤ 0x20) else t)) := by
  induction t generalizing last with
  | nil =>
    refine ⟨[], Runs.stop _ extract_nil, rfl, ?_⟩
    cases last <;> simp [collapse, encode]
  | cons c t ih =>
    have hc := (ht c List.mem_cons_self).1
    have hn' : f.newlines = true ∨ 0x0D ∉ t := hn.imp id fun h hm => h (List.mem_cons_of_mem _ hm)
    by_cases hs : c ≤ 0x20
    · cases last with
      | true =>
        obtain ⟨ps, h1, h2, h3⟩ := ih ht.tail hn' true
        refine ⟨[] :: ps, .step _ c (encode utf8 t) (start (encode utf8 t) true) [] _ _ (extract_utf8 hc.scalar _) ?_ h1,
          by simp [h2], ?_⟩
        · intro u hu
          rw [step_plain f after u ht, plain_core f after u c (encode utf8 t) true hc hu]
          unfold placeCore
          rw [if_pos hr, if_pos hs]
          rfl
        · simp only [if_true] at h3 ⊢
          rw [List.flatten_cons, List.nil_append, h3, List.dropWhile_cons_of_pos (by simpa using hs)]
      | false =>
        obtain ⟨ps, h1, h2, h3⟩ := ih ht.tail hn' true
        refine ⟨[0x20] :: ps, .step _ c (encode utf8 t) (start (encode utf8 t) true) [0x20] _ _
          (extract_utf8 hc.scalar _) ?_ h1, by simp [h2], ?_⟩
        · intro u hu
          rw [step_plain f after u ht, plain_core f after u c (encode utf8 t) false hc hu]
          unfold placeCore
          rw [if_pos hr, if_pos hs, if_neg (by simp), if_pos]
          · rfl
          · rcases hn with hn | hn
            · simp [hn]
            · have : c ≠ 0x0D := fun e => hn (by rw [e]; exact List.mem_cons_self)
              simp [this]
        · simp only [if_true] at h3
          rw [if_neg (by simp), collapse, if_pos hs, List.flatten_cons, h3]
          rfl
    · obtain ⟨ps, h1, h2, h3⟩ := ih ht.tail hn' false
      refine ⟨utf8 c :: ps, .step _ c (encode utf8 t) (start (encode utf8 t) false) (utf8 c) _ _
        (extract_utf8 hc.scalar _) ?_ h1, by simp [h2], ?_⟩
      · intro u hu
        rw [step_plain f after u ht, plain_core f after u c (encode utf8 t) last hc hu]
        unfold placeCore
        rw [if_pos hr, if_neg hs]
        rfl
      · rw [List.dropWhile_cons_of_neg (by simpa using hs), ite_self, collapse, if_neg hs, List.flatten_cons, h3,
          if_neg (by simp)]
        rfl

theorem runs_newlines {f : Flags} (hr : f.reduce = false) (hl : f.newlines = true) (after : List Byte) (t : List Nat)
    (ht : PlainText t) (hn : 0x0D ∉ t) (last : Bool) :
    Runs (unescStep f after) (start (encode utf8 t) last) .done
      ((t.map fun c => if c = 0x0A then 0x20 else c).map utf8) := by
  induction t with
  | nil => exact Runs.stop _ extract_nil
  | cons c t ih =>
    have hc := (ht c List.mem_cons_self).1
    have hne : c ≠ 0x0D := fun e => hn (by rw [e]; exact List.mem_cons_self)
    refine .step _ c (encode utf8 t) (start (encode utf8 t) last) _ _ _ (extract_utf8 hc.scalar _) ?_
      (ih ht.tail fun h => hn (List.mem_cons_of_mem _ h))
    intro u hu
    rw [step_plain f after u ht, plain_core f after u c (encode utf8 t) last hc hu]
    unfold placeCore
    rw [if_neg (by simp [hr])]
    by_cases h : c = 0x0A
    · subst h
      rw [if_pos (by simp [hl])]
      unfold newlineCore
      rw [if_neg (by simp)]
      rfl
    · rw [if_neg (by simp [hne, h])]
      simp only [h, if_false]
      rfl

/-! ## Trimming -/

theorem utf8_high {c : Nat} (hc : c ≤ 0x10FFFF) (h : 0x80 ≤ c) : ∀ b ∈ utf8 c, 0x80 ≤ b.toNat := by
  have key : ∀ k, 0x80 ≤ k → k < 0x100 → 0x80 ≤ (BitVec.ofNat 8 k).toNat := by
    intro k h1 h2; simp only [BitVec.toNat_ofNat]; omega
  intro b hb
  unfold utf8 at hb
  rw [if_neg (by omega)] at hb
  split at hb
  · simp only [List.mem_cons, List.not_mem_nil, or_false] at hb
    rcases hb with rfl | rfl <;> exact key _ (by omega) (by omega)
  · split at hb
    · simp only [List.mem_cons, List.not_mem_nil, or_false] at hb
      rcases hb with rfl | rfl | rfl <;> exact key _ (by omega) (by omega)
    · simp only [List.mem_cons, List.not_mem_nil, or_false] at hb
      rcases hb with rfl | rfl | rfl | rfl <;> exact key _ (by omega) (by omega)

theorem isSpace_high {b : Byte} (h : 0x80 ≤ b.toNat) : isSpace b = false := by
  unfold isSpace
  simp only [Bool.or_eq_false_iff, decide_eq_false_iff_not]
  refine ⟨⟨⟨?_, ?_⟩, ?_⟩, ?_⟩ <;> · rintro rfl; revert h; decide

theorem isSpace_ascii {c : Nat} (h : c < 0x80) : isSpace (BitVec.ofNat 8 c) = decide (Blank c) := by
  have : ∀ x : Fin 128, isSpace (BitVec.ofNat 8 x.1) = decide (Blank x.1) := by decide
  exact this ⟨c, h⟩

theorem Blank.lt {c : Nat} (h : Blank c) : c < 0x80 := by unfold Blank at h; omega

theorem scalar_le {c : Nat} (h : Scalar c) : c ≤ 0x10FFFF := by unfold Scalar at h; omega

theorem dropWhile_encode (t : List Nat) (ht : Scalars t) :
    (encode utf8 t).dropWhile isSpace = encode utf8 (stripLeft t) := by
  induction t with
  | nil => rfl
  | cons c t ih =>
    have hc := ht c List.mem_cons_self
    have ih := ih fun x hx => ht x (List.mem_cons_of_mem _ hx)
    rw [encode_cons]
    by_cases hlt : c < 0x80
    · rw [utf8_ascii hlt]
      show List.dropWhile isSpace (BitVec.ofNat 8 c :: encode utf8 t) = _
      unfold stripLeft
      rw [List.dropWhile_cons, List.dropWhile_cons, isSpace_ascii hlt]
      split
      · exact ih
      · rw [encode_cons, utf8_ascii hlt]; rfl
    · have hb : ¬ Blank c := fun h => hlt h.lt
      unfold stripLeft
      rw [List.dropWhile_cons_of_neg (by simpa using hb), encode_cons]
      have hh := utf8_high (scalar_le hc) (by omega)
      cases hu : utf8 c with
      | nil => exact absurd hu (utf8_ne_nil c)
      | cons b r =>
        rw [List.cons_append, List.dropWhile_cons_of_neg]
        rw [isSpace_high (hh b (by rw [hu]; exact List.mem_cons_self))]
        simp

theorem encode_append (a b : List Nat) : encode utf8 (a ++ b) = encode utf8 a ++ encode utf8 b := by
  unfold encode; rw [List.flatMap_append]

theorem dropWhile_encode_right (n : Nat) (t : List Nat) (hn : t.length = n) (ht : Scalars t) :
    ((encode utf8 t).reverse.dropWhile isSpace).reverse = encode utf8 (stripRight t) := by
  induction n generalizing t with
  | zero => rw [List.length_eq_zero_iff.mp hn]; rfl
  | succ n ih =>
    have hne : t ≠ [] := by intro e; rw [e] at hn; cases hn
    have e := List.dropLast_concat_getLast hne
    generalize t.dropLast = s at e
    generalize t.getLast hne = c at e
    subst e
    have hc := ht c (by simp)
    have ih := ih s (by simpa using hn) fun x hx => ht x (List.mem_append_left _ hx)
    have e1 : encode utf8 (s ++ [c]) = encode utf8 s ++ utf8 c := by
      rw [encode_append]; unfold encode; simp
    rw [e1, List.reverse_append]
    unfold stripRight stripLeft at ih ⊢
    rw [List.reverse_append]
    show _ = encode utf8 (List.dropWhile _ (c :: s.reverse)).reverse
    by_cases hlt : c < 0x80
    · rw [utf8_ascii hlt]
      show (List.dropWhile isSpace (BitVec.ofNat 8 c :: (encode utf8 s).reverse)).reverse = _
      rw [List.dropWhile_cons, List.dropWhile_cons, isSpace_ascii hlt]
      split
      · exact ih
      · rw [List.reverse_cons, List.reverse_cons, List.reverse_reverse, List.reverse_reverse, encode_append]
        unfold encode; simp [utf8_ascii hlt]
    · have hb : ¬ Blank c := fun h => hlt h.lt
      rw [List.dropWhile_cons_of_neg (by simpa using hb), List.reverse_cons, List.reverse_reverse, e1]
      have hh := utf8_high (scalar_le hc) (by omega)
      cases hu : (utf8 c).reverse with
      | nil => exact absurd (List.reverse_eq_nil_iff.mp hu) (utf8_ne_nil c)
      | cons b r =>
        rw [List.cons_append, List.dropWhile_cons_of_neg, ← List.cons_append, ← hu, List.reverse_append, List.reverse_reverse,
          List.reverse_reverse]
        rw [isSpace_high (hh b (by rw [← List.mem_reverse, hu]; exact List.mem_cons_self))]
        simp

theorem strip_subset {l r : Bool} {t : List Nat} {c : Nat} (h : c ∈ strip l r t) : c ∈ t := by
  have key : ∀ (t : List Nat) (c : Nat), c ∈ stripLeft t → c ∈ t := fun t c h => (List.dropWhile_sublist _).subset h
  have key2 : ∀ (t : List Nat) (c : Nat), c ∈ stripRight t → c ∈ t := by
    intro t c h
    unfold stripRight at h
    rw [List.mem_reverse] at h
    exact List.mem_reverse.mp (key _ _ h)
  cases l <;> cases r
  · exact h
  · exact key2 _ _ h
  · exact key _ _ h
  · exact key _ _ (key2 _ _ h)

theorem trim_encode (f : Flags) (t : List Nat) (ht : Scalars t) (after : List Byte) :
    (trim f ⟨encode utf8 t, after⟩).text = encode utf8 (strip f.left f.right t) := by
  have hs : Scalars (stripLeft t) := fun c h => ht c ((List.dropWhile_sublist _).subset h)
  unfold trim strip
  cases f.left <;> cases f.right <;> simp only [if_true, Bool.false_eq_true, if_false]
  · unfold trimRight; exact dropWhile_encode_right _ t rfl ht
  · unfold trimLeft; exact dropWhile_encode t ht
  · unfold trimRight trimLeft
    dsimp only
    rw [dropWhile_encode t ht]
    exact dropWhile_encode_right _ _ rfl hs

theorem trim_none {f : Flags} (hl : f.left = false) (hr : f.right = false) (v : View) : trim f v = v := by
  unfold trim; rw [hl, hr]; simp

theorem isSpace_iff (b : Byte) : isSpace b = true ↔ Blank b.toNat := by
  unfold isSpace Blank
  simp only [Bool.or_eq_true, decide_eq_true_eq, ← BitVec.toNat_inj]
  constructor
  · rintro (((h | h) | h) | h) <;> rw [h] <;> decide
  · rintro (h | h | h | h) <;> rw [h] <;> decide

theorem dropWhile_parts {l m : List Byte} (hl : ∀ b ∈ l, Blank b.toNat)
    (h1 : ∀ b, m.head? = some b → ¬ Blank b.toNat) : (l ++ m).dropWhile isSpace = m := by
  rw [List.dropWhile_append_of_pos (fun b hb => (isSpace_iff b).mpr (hl b hb))]
  cases m with
  | nil => rfl
  | cons b m => exact List.dropWhile_cons_of_neg fun h => h1 b rfl ((isSpace_iff b).mp h)

theorem trim_parts {f : Flags} {l m r : List Byte} (hl : ∀ b ∈ l, Blank b.toNat) (hr : ∀ b ∈ r, Blank b.toNat)
    (hl0 : f.left = false → l = []) (hr0 : f.right = false → r = [])
    (hl1 : f.left = true → ∀ b, m.head? = some b → ¬ Blank b.toNat)
    (hr1 : f.right = true → ∀ b, m.getLast? = some b → ¬ Blank b.toNat) (after : List Byte) :
    (trim f ⟨l ++ m ++ r, after⟩).text = m := by
  have right : f.right = true → (((m ++ r).reverse).dropWhile isSpace).reverse = m := by
    intro h
    rw [List.reverse_append, dropWhile_parts (by simpa using hr) (by simpa using hr1 h), List.reverse_reverse]
  by_cases hm : m = []
  · subst hm
    have hall : ∀ b ∈ l ++ r, isSpace b = true := by
      intro b hb
      rcases List.mem_append.mp hb with h | h
      · exact (isSpace_iff b).mpr (hl b h)
      · exact (isSpace_iff b).mpr (hr b h)
    have hd : (l ++ r).dropWhile isSpace = [] := by
      simpa using List.dropWhile_append_of_pos (l₂ := []) hall
    have hd' : (l ++ r).reverse.dropWhile isSpace = [] := by
      simpa using List.dropWhile_append_of_pos (l₁ := (l ++ r).reverse) (l₂ := []) (p := isSpace) (fun b hb => hall b (List.mem_reverse.mp hb))
    unfold trim
    cases h1 : f.left <;> cases h2 : f.right <;>
      simp only [if_true, Bool.false_eq_true, if_false, List.append_nil, trimLeft, trimRight, hd, hd'] <;> try rfl
    rw [hl0 h1, hr0 h2]; rfl
  · have left : f.left = true → (l ++ m ++ r).dropWhile isSpace = m ++ r := by
      intro h
      rw [List.append_assoc, dropWhile_parts hl]
      intro b hb
      rw [List.head?_append] at hb
      cases m with
      | nil => exact absurd rfl hm
      | cons c m => exact hl1 h b hb
    unfold trim
    cases h1 : f.left <;> cases h2 : f.right <;> simp only [if_true, Bool.false_eq_true, if_false, trimLeft, trimRight]
    · rw [hl0 h1, hr0 h2]; simp
    · rw [hl0 h1]; exact right h2
    · rw [left h1, hr0 h2]; simp
    · rw [left h1]; exact right h2

theorem trim_after (f : Flags) (v : View) (h : v.after ≠ []) : (trim f v).after ≠ [] := by
  unfold trim
  cases f.left <;> cases f.right <;> simp [trimLeft, trimRight, h]

theorem PlainText.scalars {t : List Nat} (h : PlainText t) : Scalars t := fun c hc => (h c hc).1.scalar

theorem encode_isEmpty (t : List Nat) : (encode utf8 t).isEmpty = t.isEmpty := by
  cases t with
  | nil => rfl
  | cons c t =>
    rw [encode_cons]
    cases h : utf8 c with
    | nil => exact absurd h (utf8_ne_nil c)
    | cons b r => rfl

/-- The result of a run that fits. -/
theorem Runs.fits {step : Unesc → Nat → C (Option Unesc)} {s : List Byte} {ps : List (List Byte)}
    (h : Runs step (start s false) .done ps) (hp : ps.length ≤ s.length) (room : Nat) (hr : ps.flatten.length < room) :
    unescLoop step (s.length + 1) { cur := s, prev := s, last := false, out := [], room := room, size := 0 } =
      .ok { ok := true, written := ps.flatten.length, out := ps.flatten ++ [0] } := by
  rw [h.loop (s.length + 1) (by omega) _ rfl]
  obtain ⟨h1, h2⟩ := emits_fit ps { cur := s, prev := s, last := false, out := [], room := room, size := 0 } (by
    show _ ≤ room; omega)
  unfold conclude
  rw [h1, h2, emits_size]
  dsimp only
  rw [if_pos (by omega)]
  simp

theorem flatten_map_utf8 (t : List Nat) : (t.map utf8).flatten = encode utf8 t := rfl

theorem encode_length_le (t : List Nat) : t.length ≤ (encode utf8 t).length := by
  induction t with
  | nil => simp
  | cons c t ih =>
    have := List.length_pos_iff.mpr (utf8_ne_nil c)
    rw [encode_cons]; simp only [List.length_cons, List.length_append]; omega

end Tm.Xml
