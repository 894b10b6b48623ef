import Verif.Json.PointerLemmas

/-!
# JSON pointers and what they refer to: lemmas
-/

namespace Tm.Json

open Tm Spec

/-- The text of a reference token as the program reads it. Bytes that are percent-encoded are no digits, and neither `~` nor `/`. -/
inductive Enc (fragment : Bool) : List Byte → List Byte → Prop
  | nil : Enc fragment [] []
  | plain {b t s} : b ≠ 0x7E → b ≠ 0x2F → (fragment = true → b ≠ 0x25) → Enc fragment t s → Enc fragment (b :: t) (b :: s)
  | tilde {t s} : Enc fragment t s → Enc fragment (0x7E :: t) (0x7E :: 0x30 :: s)
  | slash {t s} : Enc fragment t s → Enc fragment (0x2F :: t) (0x7E :: 0x31 :: s)
  | encoded {x y m n t s} : fragment = true → hexDigit x = some m → hexDigit y = some n → ¬ Digit (BitVec.ofNat 8 (16 * m + n)) →
      Enc fragment t s → Enc fragment (BitVec.ofNat 8 (16 * m + n) :: t) (0x25 :: x :: y :: s)

/-- The bytes that may be percent-encoded. -/
def Harmless (b : Byte) : Prop := ¬ Digit b ∧ b ≠ chr '~' ∧ b ≠ chr '/'

theorem enc_escaped : ∀ t : List Byte, Enc false t (escaped t)
  | [] => .nil
  | b :: t => by
    rw [escaped]
    by_cases h1 : b = chr '~'
    · rw [if_pos h1, h1]
      exact .tilde (enc_escaped t)
    · rw [if_neg h1]
      by_cases h2 : b = chr '/'
      · rw [if_pos h2, h2]
        exact .slash (enc_escaped t)
      · rw [if_neg h2]
        exact .plain h1 h2 nofun (enc_escaped t)

theorem percent_append {P : Byte → Prop} : ∀ {p q s : List Byte}, Percent P (p ++ q) s →
    ∃ s1 s2, s = s1 ++ s2 ∧ Percent P p s1 ∧ Percent P q s2
  | [], q, s, h => ⟨[], s, rfl, .nil, h⟩
  | b :: p, q, s, h => by
    rw [List.cons_append] at h
    cases h with
    | plain hb h =>
      obtain ⟨s1, s2, e, h1, h2⟩ := percent_append h
      exact ⟨_ :: s1, s2, by rw [e]; rfl, .plain hb h1, h2⟩
    | encoded hx hy hP h =>
      obtain ⟨s1, s2, e, h1, h2⟩ := percent_append h
      exact ⟨_ :: _ :: _ :: s1, s2, by rw [e]; rfl, .encoded hx hy hP h1, h2⟩

/-- A byte that is not percent-encoded. -/
theorem percent_cons {P : Byte → Prop} {b : Byte} {p s : List Byte} (hb : ¬ P b) (h : Percent P (b :: p) s) :
    ∃ s', s = b :: s' ∧ Percent P p s' := by
  cases h with
  | plain _ h => exact ⟨_, rfl, h⟩
  | encoded _ _ hP _ => exact absurd hP hb

theorem not_harmless : ¬ Harmless 0x7E ∧ ¬ Harmless 0x2F ∧ ¬ Harmless 0x30 ∧ ¬ Harmless 0x31 :=
  ⟨fun h => h.2.1 rfl, fun h => h.2.2 rfl, fun h => h.1 (by decide), fun h => h.1 (by decide)⟩

theorem enc_percent : ∀ (t : List Byte) {s : List Byte}, Percent Harmless (escaped t) s → Enc true t s
  | [], s, h => by
    rw [escaped] at h
    cases h
    exact .nil
  | b :: t, s, h => by
    rw [escaped] at h
    by_cases h1 : b = chr '~'
    · rw [if_pos h1] at h
      obtain ⟨s1, e1, h3⟩ := percent_cons not_harmless.1 h
      obtain ⟨s2, e2, h4⟩ := percent_cons not_harmless.2.2.1 h3
      rw [e1, e2]
      rw [h1]
      exact .tilde (enc_percent t h4)
    · rw [if_neg h1] at h
      by_cases h2 : b = chr '/'
      · rw [if_pos h2] at h
        obtain ⟨s1, e1, h3⟩ := percent_cons not_harmless.1 h
        obtain ⟨s2, e2, h4⟩ := percent_cons not_harmless.2.2.2 h3
        rw [e1, e2]
        rw [h2]
        exact .slash (enc_percent t h4)
      · rw [if_neg h2] at h
        cases h with
        | plain hb h => exact .plain h1 h2 (fun _ => hb) (enc_percent t h)
        | encoded hx hy hP h => exact .encoded rfl hx hy hP.1 (enc_percent t h)

/-- The segments of a pointer. -/
def joined (segs : List (List Byte)) : List Byte := segs.flatMap fun s => 0x2F :: s

theorem pointer_plain : ∀ ts : List (List Byte), ∃ segs, List.Forall₂ (Enc false) ts segs ∧ pointerText ts = joined segs
  | [] => ⟨[], .nil, rfl⟩
  | t :: ts => by
    obtain ⟨segs, h1, h2⟩ := pointer_plain ts
    exact ⟨escaped t :: segs, .cons (enc_escaped t) h1, by
      simp [pointerText, joined] at h2 ⊢
      exact ⟨rfl, h2⟩⟩

theorem pointer_percent : ∀ (ts : List (List Byte)) {s : List Byte}, Percent Harmless (pointerText ts) s →
    ∃ segs, List.Forall₂ (Enc true) ts segs ∧ s = joined segs
  | [], s, h => by
    simp [pointerText] at h
    cases h
    exact ⟨[], .nil, rfl⟩
  | t :: ts, s, h => by
    have e : pointerText (t :: ts) = (chr '/' :: escaped t) ++ pointerText ts := by simp [pointerText]
    rw [e] at h
    obtain ⟨s1, s2, rfl, h1, h2⟩ := percent_append h
    obtain ⟨s', e', h4⟩ := percent_cons not_harmless.2.1 h1
    obtain ⟨segs, h3, rfl⟩ := pointer_percent ts h2
    exact ⟨s' :: segs, .cons (enc_percent t h4) h3, by rw [e']; simp [joined]⟩

theorem hex_no_slash {x : Byte} {m : Nat} (h : hexDigit x = some m) : x ≠ 0x2F := by
  revert m
  revert x
  decide +kernel

theorem enc_no_slash {f : Bool} {t s : List Byte} (h : Enc f t s) : ∀ b ∈ s, b ≠ 0x2F := by
  induction h with
  | nil => nofun
  | plain _ h2 _ _ ih => intro b hb; rcases List.mem_cons.1 hb with rfl | hb; exacts [h2, ih b hb]
  | tilde _ ih =>
    intro b hb
    rcases List.mem_cons.1 hb with rfl | hb
    · decide
    rcases List.mem_cons.1 hb with rfl | hb
    · decide
    exact ih b hb
  | slash _ ih =>
    intro b hb
    rcases List.mem_cons.1 hb with rfl | hb
    · decide
    rcases List.mem_cons.1 hb with rfl | hb
    · decide
    exact ih b hb
  | encoded _ hx hy _ _ ih =>
    intro b hb
    rcases List.mem_cons.1 hb with rfl | hb
    · decide
    rcases List.mem_cons.1 hb with rfl | hb
    · exact hex_no_slash hx
    rcases List.mem_cons.1 hb with rfl | hb
    · exact hex_no_slash hy
    exact ih b hb

/-- Digits are written as they are. -/
theorem enc_digits {f : Bool} {t s : List Byte} (h : Enc f t s) (hd : ∀ b ∈ t, Digit b) : s = t := by
  induction h with
  | nil => rfl
  | plain _ _ _ _ ih => rw [ih (fun b hb => hd b (by simp [hb]))]
  | tilde _ _ => exact absurd (hd 0x7E (by simp)) (by decide)
  | slash _ _ => exact absurd (hd 0x2F (by simp)) (by decide)
  | encoded _ _ _ hn _ _ => exact absurd (hd _ (by simp)) hn

theorem isDigit_iff (b : Byte) : isDigit b = true ↔ Digit b := by simp [isDigit, Digit]

theorem enc_starts {f : Bool} {t s : List Byte} (h : Enc f t s) : isDigit (s.headD 0) = true ↔ StartsWithDigit t := by
  cases h with
  | nil => simp [StartsWithDigit, isDigit]
  | plain _ _ _ _ => simp [StartsWithDigit, isDigit_iff]
  | tilde _ => simp [StartsWithDigit, isDigit, Digit]
  | slash _ => simp [StartsWithDigit, isDigit, Digit]
  | encoded _ _ _ hn _ =>
    constructor
    · intro h; exact absurd h (by simp [isDigit])
    · rintro ⟨b, hb, hd⟩
      simp at hb
      rw [← hb] at hd
      exact absurd hd hn

/-! ### Unescaping -/

theorem xdigit_of_hex {x : Byte} {m : Nat} (h : hexDigit x = some m) : isXDigit x = true := by
  revert m
  revert x
  decide +kernel

theorem two_digits {x y : Byte} {m n : Nat} (hx : hexDigit x = some m) (hy : hexDigit y = some n) :
    (toNumber 32 32 false 16 [x, y] 0).setWidth 8 = BitVec.ofNat 8 (16 * m + n) := by
  have hs : ∀ b ∈ [x, y], (hexDigit b).isSome := by
    intro b hb
    simp at hb
    rcases hb with rfl | rfl
    · rw [hx]; rfl
    · rw [hy]; rfl
  have bd : ∀ {c : Byte} {d : Nat}, hexDigit c = some d → d < 16 := by
    intro c d
    revert d
    revert c
    decide +kernel
  have h1 := bd hx
  have h2 := bd hy
  have e : hexadecimal [x, y] = 16 * m + n := by simp [hexadecimal, hx, hy]
  unfold toNumber
  rw [if_neg (by simp)]
  unfold strtoul
  rw [signAndValue_hex hs, e]
  simp only [Bool.false_eq_true, if_false]
  rw [if_pos (by omega)]
  dsimp only
  apply BitVec.eq_of_toNat_eq
  simp
  omega

/-- Writing over what was read. -/
theorem set_read {done gap used tail : List Byte} (hu : used ≠ []) (c : Byte) :
    ∃ gap', (done ++ gap ++ used ++ tail).set done.length c = (done ++ [c]) ++ gap' ++ tail ∧
      gap'.length + 1 = gap.length + used.length := by
  match hg : gap ++ used with
  | [] => simp at hg; exact absurd hg.2 hu
  | g :: gap' =>
    refine ⟨gap', ?_, ?_⟩
    · rw [List.append_assoc done, hg, List.append_assoc, List.set_append_right _ _ (Nat.le_refl _), Nat.sub_self]
      simp
    · have := congrArg List.length hg
      simp at this
      omega

theorem unescape_enc {f : Bool} {t s : List Byte} (h : Enc f t s) : ∀ (fuel : Nat) (done gap rest : List Byte), s.length < fuel →
    ∃ rest', unescape f (done.length + gap.length + s.length) fuel (done ++ gap ++ s ++ 0 :: rest) (done.length + gap.length) done.length =
        .ok (some (done ++ t ++ rest', done.length + t.length)) ∧
      (done ++ t ++ rest').length = (done ++ gap ++ s ++ 0 :: rest).length ∧ rest' ≠ [] := by
  have next : ∀ (t s used : List Byte) (c : Byte), used ≠ [] →
      (∀ (fuel : Nat) (done gap rest : List Byte), s.length < fuel →
        ∃ rest', unescape f (done.length + gap.length + s.length) fuel (done ++ gap ++ s ++ 0 :: rest) (done.length + gap.length) done.length =
            .ok (some (done ++ t ++ rest', done.length + t.length)) ∧
          (done ++ t ++ rest').length = (done ++ gap ++ s ++ 0 :: rest).length ∧ rest' ≠ []) →
      ∀ (fuel : Nat) (done gap rest : List Byte), (used ++ s).length < fuel + 1 →
        ∃ rest', (wr (done ++ gap ++ (used ++ s) ++ 0 :: rest) done.length c >>= fun b =>
            unescape f (done.length + gap.length + (used ++ s).length) fuel b (done.length + gap.length + used.length) (done.length + 1)) =
            .ok (some (done ++ (c :: t) ++ rest', done.length + (c :: t).length)) ∧
          (done ++ (c :: t) ++ rest').length = (done ++ gap ++ (used ++ s) ++ 0 :: rest).length ∧ rest' ≠ [] := by
    intro t s used c hu ih fuel done gap rest hf
    obtain ⟨gap', e1, e2⟩ := set_read (done := done) (gap := gap) (used := used) (tail := s ++ 0 :: rest) hu c
    have e3 : done ++ gap ++ (used ++ s) ++ 0 :: rest = done ++ gap ++ used ++ (s ++ 0 :: rest) := by simp
    have ul : used.length ≠ 0 := fun e => hu (List.length_eq_zero_iff.1 e)
    rw [List.length_append] at hf
    rw [wr_ok (by simp +arith), ok_bind, e3, e1]
    obtain ⟨rest', h1, h2, h3⟩ := ih fuel (done ++ [c]) gap' rest (by omega)
    have l1 : (done ++ [c]).length + gap'.length + s.length = done.length + gap.length + (used ++ s).length := by
      simp; omega
    have l2 : (done ++ [c]).length + gap'.length = done.length + gap.length + used.length := by
      simp; omega
    rw [l1, l2] at h1
    refine ⟨rest', ?_, ?_, h3⟩
    · rw [← List.append_assoc (done ++ [c] ++ gap')]
      simp only [List.length_append, List.length_singleton] at h1 ⊢
      rw [h1]
      simp +arith
    · have := h2
      simp at this ⊢
      omega
  have hrd : ∀ (done gap : List Byte) (c : Byte) (tail : List Byte), rd (done ++ gap ++ c :: tail) (done.length + gap.length) = .ok c := by
    intro done gap c tail
    unfold rd
    rw [List.getElem?_append_right (by simp)]
    simp
  have hrd1 : ∀ (done gap : List Byte) (d c : Byte) (tail : List Byte),
      rd (done ++ gap ++ d :: c :: tail) (done.length + gap.length + 1) = .ok c := by
    intro done gap d c tail
    unfold rd
    rw [List.getElem?_append_right (by simp +arith)]
    simp
  have hrd2 : ∀ (done gap : List Byte) (d e c : Byte) (tail : List Byte),
      rd (done ++ gap ++ d :: e :: c :: tail) (done.length + gap.length + 2) = .ok c := by
    intro done gap d e c tail
    unfold rd
    rw [List.getElem?_append_right (by simp +arith)]
    simp
  have asc : ∀ (done gap s rest : List Byte) (c : Byte), done ++ gap ++ (c :: s) ++ 0 :: rest = done ++ gap ++ c :: (s ++ 0 :: rest) := by
    intro done gap s rest c
    simp
  induction h with
  | nil =>
    intro fuel done gap rest hf
    match fuel, hf with
    | fuel + 1, _ =>
      rw [unescape, if_neg (by simp)]
      exact ⟨gap ++ 0 :: rest, by simp, by simp, by simp⟩
  | plain h1 h2 h3 _ ih =>
    rename_i b t s _
    intro fuel done gap rest hf
    match fuel, hf with
    | fuel + 1, hf =>
      rw [unescape, if_pos (by simp), asc, hrd, ok_bind, if_neg, if_neg h1, ← asc]
      · exact next t s [b] b (by simp) ih fuel done gap rest (by simpa using hf)
      · simp only [Bool.and_eq_true, decide_eq_true_eq]
        exact fun x => h3 x.1 x.2
  | tilde _ ih =>
    rename_i t s _
    intro fuel done gap rest hf
    match fuel, hf with
    | fuel + 1, hf =>
      rw [unescape, if_pos (by simp), asc, hrd, ok_bind, if_neg (by simp), if_pos rfl]
      rw [List.cons_append, hrd1, ok_bind, if_pos rfl, ← List.cons_append, ← asc]
      exact next t s [0x7E, 0x30] 0x7E (by simp) ih fuel done gap rest (by simp at hf ⊢; omega)
  | slash _ ih =>
    rename_i t s _
    intro fuel done gap rest hf
    match fuel, hf with
    | fuel + 1, hf =>
      rw [unescape, if_pos (by simp), asc, hrd, ok_bind, if_neg (by simp), if_pos rfl]
      rw [List.cons_append, hrd1, ok_bind, if_neg (by decide), if_pos rfl, ← List.cons_append, ← asc]
      exact next t s [0x7E, 0x31] 0x2F (by simp) ih fuel done gap rest (by simp at hf ⊢; omega)
  | encoded hf' hx hy hn _ ih =>
    rename_i x y m n t s _
    intro fuel done gap rest hf
    match fuel, hf with
    | fuel + 1, hf =>
      rw [unescape, if_pos (by simp), asc, hrd, ok_bind, if_pos (by simp [hf'])]
      rw [List.cons_append, List.cons_append, hrd1, ok_bind, if_neg (by simp [xdigit_of_hex hx]), hrd2, ok_bind,
        if_neg (by simp [xdigit_of_hex hy]), ← List.cons_append, ← List.cons_append, ← asc, two_digits hx hy]
      exact next t s [0x25, x, y] (BitVec.ofNat 8 (16 * m + n)) (by simp) ih fuel done gap rest (by simp at hf ⊢; omega)

/-! ### Steps -/

theorem named_shows {R : Shown} (hR : ∀ v t, R.name v t → v.text = .ok t) {vs : List (View × JVal)} {ms : List (List Byte × Json)}
    (h : List.Forall₂ (fun v m => R.name v.1 m.1) vs ms) : Named vs (ms.map (·.1)) := by
  induction h with
  | nil => exact .nil
  | cons h1 _ ih => exact .cons (hR _ _ h1) ih

theorem forall2_get {α β : Type} {R : α → β → Prop} {xs : List α} {ys : List β} (h : List.Forall₂ R xs ys) (i : Nat) :
    (xs[i]? = none ∧ ys[i]? = none) ∨ ∃ x y, xs[i]? = some x ∧ ys[i]? = some y ∧ R x y := by
  induction h generalizing i with
  | nil => left; simp
  | cons h1 _ ih =>
    cases i with
    | zero => right; exact ⟨_, _, rfl, rfl, h1⟩
    | succ i => exact ih i

theorem find_by_index : ∀ (ms : List (List Byte × Json)) (t : List Byte) (i : Nat),
    (ms.map (·.1)).findIdx? (fun n => decide (n = t)) = some i → ms.find? (fun m => m.1 = t) = ms[i]?
  | [], _, _, h => by simp at h
  | m :: ms, t, i, h => by
    rw [List.map_cons, List.findIdx?_cons] at h
    by_cases e : m.1 = t
    · simp [e] at h
      subst h
      simp [e]
    · simp only [e, decide_false, Bool.false_eq_true, if_false] at h
      obtain ⟨k, hk, rfl⟩ := Option.map_eq_some_iff.1 h
      rw [List.find?_cons, show decide (m.1 = t) = false from by simp [e]]
      dsimp only
      rw [find_by_index ms t k hk]
      simp

theorem find_none {ms : List (List Byte × Json)} {t : List Byte} (h : t ∉ ms.map (·.1)) : ms.find? (fun m => m.1 = t) = none := by
  rw [List.find?_eq_none]
  intro m hm
  simp only [decide_eq_true_eq]
  rintro rfl
  exact h (List.mem_map.2 ⟨m, hm, rfl⟩)

theorem index_number {t : List Byte} (hi : IntPart t) (hr : decimal t < 2 ^ 64) : (toNumber 64 64 false 10 t 0).toNat = decimal t := by
  obtain ⟨_, hd⟩ := intPart_digits hi
  have hl : t.length ≤ 64 := by
    by_contra hl
    have := decimal_large hi 62 (by omega)
    omega
  unfold toNumber
  rw [if_neg (by omega), if_neg (by simp), strtoul_digits hd, if_pos hr]
  simp only [BitVec.ofInt_natCast, BitVec.toNat_ofNat]
  exact Nat.mod_eq_of_lt hr

theorem index_starts {t : List Byte} (h : Index t) : StartsWithDigit t := by
  obtain ⟨hn, hd⟩ := intPart_digits h
  match t, hn with
  | c :: t, _ => exact ⟨c, rfl, hd c (by simp)⟩

theorem takeWhile_name {t rest' : List Byte} (h0 : ∀ b ∈ t, b ≠ 0) (hr : rest' ≠ []) :
    ((t ++ rest').set t.length 0).takeWhile (· ≠ 0) = t := by
  rw [List.set_append_right _ _ (Nat.le_refl _), Nat.sub_self]
  match rest', hr with
  | r :: rest', _ =>
    rw [List.set_cons_zero, List.takeWhile_append_of_pos (by simpa using h0)]
    simp

theorem step_means {L : List Nat} (junk : Byte) (f : Bool) {R : Shown} (hR : ∀ v t, R.name v t → v.text = .ok t) {h : Vec.Heap} {b : Buf}
    (hb : BufOk L h b) {current : JVal} {j : Json} (hm : MeansBy R current j) {t seg : List Byte} (he : Enc f t seg) (h0 : ∀ b ∈ t, b ≠ 0)
    (ht : StartsWithDigit t → Index t ∧ decimal t < 2 ^ 64) (hj : ∀ n, HasName n j → ¬ StartsWithDigit n)
    (mem : (∀ k, h.ok k = true) ∨ seg.length < 64) :
    ∃ h' b' r, step junk f h b current seg = .ok (h', b', r) ∧ BufOk L h' b' ∧ h'.ok = h.ok ∧
      ((∃ j' v, r = some v ∧ MeansBy R v j' ∧ (∀ ts, evaluate j (t :: ts) = evaluate j' ts) ∧ ∀ n, HasName n j' → HasName n j) ∨
        (r.getD nil = nil ∧ ∀ ts, evaluate j (t :: ts) = none)) := by
  unfold step
  by_cases hd : StartsWithDigit t
  · rw [if_pos ((enc_starts he).2 hd)]
    obtain ⟨hi, hr⟩ := ht hd
    have hs : seg = t := enc_digits he (intPart_digits hi).2
    rw [hs]
    unfold stepArray
    cases hm with
    | arr hf =>
      rename_i vs js
      dsimp only
      rw [index_number hi hr, ok_bind]
      refine ⟨h, b, _, rfl, hb, rfl, ?_⟩
      rcases forall2_get hf (decimal t) with ⟨h1, h2⟩ | ⟨x, y, h1, h2, h3⟩
      · right
        refine ⟨by rw [h1]; rfl, fun ts => ?_⟩
        simp [evaluate, hi, h2]
      · left
        refine ⟨y, x, h1, h3, fun ts => ?_, fun n hn => .item (List.mem_of_getElem? h2) hn⟩
        simp [evaluate, hi, h2]
    | obj hf hg =>
      rename_i vs ms
      refine ⟨h, b, none, rfl, hb, rfl, Or.inr ⟨rfl, fun ts => ?_⟩⟩
      have : ms.find? (fun m => m.1 = t) = none := by
        apply find_none
        intro hmem
        obtain ⟨m, hm1, hm2⟩ := List.mem_map.1 hmem
        exact hj t (.here hm1 hm2) hd
      simp [evaluate, this]
    | null => exact ⟨h, b, none, rfl, hb, rfl, Or.inr ⟨rfl, fun ts => by simp [evaluate]⟩⟩
    | bool => exact ⟨h, b, none, rfl, hb, rfl, Or.inr ⟨rfl, fun ts => by simp [evaluate]⟩⟩
    | num => exact ⟨h, b, none, rfl, hb, rfl, Or.inr ⟨rfl, fun ts => by simp [evaluate]⟩⟩
    | str => exact ⟨h, b, none, rfl, hb, rfl, Or.inr ⟨rfl, fun ts => by simp [evaluate]⟩⟩
  · rw [if_neg (fun x => hd ((enc_starts he).1 x))]
    unfold stepObject
    cases hm with
    | obj hf hg =>
      rename_i vs ms
      dsimp only
      have hn := named_shows hR hf
      obtain ⟨h1, b1, ok, hen, hb1, hok, hroom, hgot⟩ := ensure_ok junk hb (seg.length + 1)
      have hk : ok = true := hgot (mem.imp id (fun x => by have := hb.1; omega))
      subst hk
      have hr := hroom rfl
      rw [hen, ok_bind]
      obtain ⟨rest, hcp, hlen⟩ := copyIn_ok (cells := b1.cells) (seg := seg) (by omega)
      dsimp only
      rw [if_neg (by simp), hcp, ok_bind]
      obtain ⟨rest', hu, hl, hne⟩ := unescape_enc he (seg.length + 1) [] [] rest (by omega)
      simp only [List.length_nil, Nat.zero_add, List.nil_append] at hu hl
      rw [hu, ok_bind]
      dsimp only
      have rl : rest'.length ≠ 0 := fun e => hne (List.length_eq_zero_iff.1 e)
      rw [wr_ok (by simp; omega), ok_bind, if_pos (takeWhile_contains (by simp; omega)), takeWhile_name h0 hne]
      obtain ⟨v, k, hgm, hv⟩ := getMember_zero hn t
      rw [hgm, ok_bind]
      refine ⟨h1, _, some v, rfl, ⟨?_, hb1.2⟩, hok, ?_⟩
      · dsimp only
        rw [List.length_set, hl, hlen]
        exact hb1.1
      · rcases hv with ⟨hnot, rfl⟩ | ⟨i, m, hfi, hmi, rfl⟩
        · right
          refine ⟨rfl, fun ts => ?_⟩
          have := find_none hnot
          simp [evaluate, this]
        · left
          have hfd := find_by_index ms t i hfi
          rcases forall2_get hg i with ⟨e1, _⟩ | ⟨x, y, e1, e2, e3⟩
          · rw [List.getElem?_map, hmi] at e1
            cases e1
          · rw [List.getElem?_map, hmi] at e1
            cases e1
            rw [List.getElem?_map] at e2
            obtain ⟨p, hp, rfl⟩ := Option.map_eq_some_iff.1 e2
            rw [hp] at hfd
            refine ⟨p.2, m.2, rfl, e3, fun ts => ?_, fun n hn => .member (List.mem_of_getElem? hp) hn⟩
            simp [evaluate, hfd]
    | arr hf =>
      refine ⟨h, b, none, rfl, hb, rfl, Or.inr ⟨rfl, fun ts => ?_⟩⟩
      have : ¬ Index t := fun x => hd (index_starts x)
      simp [evaluate, this]
    | null => exact ⟨h, b, none, rfl, hb, rfl, Or.inr ⟨rfl, fun ts => by simp [evaluate]⟩⟩
    | bool => exact ⟨h, b, none, rfl, hb, rfl, Or.inr ⟨rfl, fun ts => by simp [evaluate]⟩⟩
    | num => exact ⟨h, b, none, rfl, hb, rfl, Or.inr ⟨rfl, fun ts => by simp [evaluate]⟩⟩
    | str => exact ⟨h, b, none, rfl, hb, rfl, Or.inr ⟨rfl, fun ts => by simp [evaluate]⟩⟩

/-! ### Pointers -/

theorem take_segment {seg : List Byte} (h : ∀ b ∈ seg, b ≠ 0x2F) (segs : List (List Byte)) :
    (seg ++ joined segs).takeWhile (· ≠ 0x2F) = seg ∧ (seg ++ joined segs).dropWhile (· ≠ 0x2F) = joined segs := by
  have hj : (joined segs).takeWhile (· ≠ 0x2F) = [] ∧ (joined segs).dropWhile (· ≠ 0x2F) = joined segs := by
    cases segs <;> simp [joined]
  rw [List.takeWhile_append_of_pos (by simpa using h), hj.1, List.dropWhile_append_of_pos (by simpa using h), hj.2]
  simp

theorem joined_length : ∀ (segs : List (List Byte)), ∀ s ∈ segs, s.length < (joined segs).length
  | [], _, h => by simp at h
  | a :: segs, s, h => by
    have e : joined (a :: segs) = 0x2F :: (a ++ joined segs) := by simp [joined]
    rw [e]
    rcases List.mem_cons.1 h with rfl | h
    · simp; omega
    · have := joined_length segs s h
      simp; omega

/-- Nothing is found in nothing. -/
theorem walk_nil {L : List Nat} (junk : Byte) (f : Bool) {h : Vec.Heap} {b : Buf} (hb : BufOk L h b) (fuel : Nat) (text : List Byte)
    (hf : 0 < fuel) : ∃ h' b' r, walk junk f fuel h b nil text = .ok (h', b', r) ∧ BufOk L h' b' ∧ r.getD nil = nil := by
  match fuel, hf with
  | fuel + 1, _ =>
    have : step junk f h b nil (text.takeWhile (· ≠ 0x2F)) = .ok (h, b, none) := by
      unfold step
      split <;> rfl
    rw [walk, this, ok_bind]
    exact ⟨h, b, none, rfl, hb, rfl⟩

theorem walk_means {L : List Nat} (junk : Byte) (f : Bool) {R : Shown} (hR : ∀ v t, R.name v t → v.text = .ok t) :
    ∀ (ts segs : List (List Byte)) (t seg : List Byte) (fuel : Nat) (h : Vec.Heap) (b : Buf) (current : JVal) (j : Json),
      BufOk L h b → MeansBy R current j → Enc f t seg → List.Forall₂ (Enc f) ts segs → (∀ u ∈ t :: ts, ∀ b ∈ u, b ≠ 0) →
      (∀ u ∈ t :: ts, StartsWithDigit u → Index u ∧ decimal u < 2 ^ 64) → (∀ n, HasName n j → ¬ StartsWithDigit n) →
      ((∀ k, h.ok k = true) ∨ ∀ s ∈ seg :: segs, s.length < 64) → (seg ++ joined segs).length < fuel →
      ∃ h' b' r, walk junk f fuel h b current (seg ++ joined segs) = .ok (h', b', r) ∧ BufOk L h' b' ∧
        ((∃ j' v, evaluate j (t :: ts) = some j' ∧ r = some v ∧ MeansBy R v j') ∨
          (evaluate j (t :: ts) = none ∧ r.getD nil = nil))
  | ts, segs, t, seg, 0, _, _, _, _, _, _, _, _, _, _, _, _, hf => by omega
  | ts, segs, t, seg, fuel + 1, h, b, current, j, hb, hm, he, hes, h0, ht, hj, mem, hf => by
    obtain ⟨e1, e2⟩ := take_segment (enc_no_slash he) segs
    obtain ⟨h1, b1, r, hs, hb1, hok, hr⟩ := step_means junk f hR hb hm he (h0 t (by simp)) (ht t (by simp)) hj
      (mem.imp id (fun x => x seg (by simp)))
    rw [walk, e1, e2, hs, ok_bind]
    have hcont : ∀ v, v = nil → (∀ ts, evaluate j (t :: ts) = none) →
        ∃ h' b' r', (match joined segs with
          | [] => (.ok (h1, b1, some v) : C (Vec.Heap × Buf × Option JVal))
          | _ :: text => walk junk f fuel h1 b1 v text) = .ok (h', b', r') ∧ BufOk L h' b' ∧
          ((∃ j' v, evaluate j (t :: ts) = some j' ∧ r' = some v ∧ MeansBy R v j') ∨
            (evaluate j (t :: ts) = none ∧ r'.getD nil = nil)) := by
      rintro v rfl hev
      cases hes with
      | nil => exact ⟨h1, b1, some nil, rfl, hb1, Or.inr ⟨hev _, rfl⟩⟩
      | cons _ _ =>
        rename_i t' s' ts' segs' _ _
        have hj' : joined (s' :: segs') = 0x2F :: (s' ++ joined segs') := by simp [joined]
        rw [hj']
        dsimp only
        obtain ⟨h', b', r', w1, w2, w3⟩ := walk_nil junk f hb1 fuel (s' ++ joined segs') (by
          rw [hj'] at hf
          simp at hf
          omega)
        exact ⟨h', b', r', w1, w2, Or.inr ⟨hev _, w3⟩⟩
    rcases hr with ⟨j', v, rfl, hv, hev, hnm⟩ | ⟨hr, hev⟩
    · dsimp only
      cases hes with
      | nil =>
        refine ⟨h1, b1, some v, rfl, hb1, Or.inl ⟨j', v, ?_, rfl, hv⟩⟩
        rw [hev]
        simp [evaluate]
      | cons he' hes' =>
        rename_i t' s' ts' segs'
        have hj' : joined (s' :: segs') = 0x2F :: (s' ++ joined segs') := by simp [joined]
        rw [hj']
        dsimp only
        rw [hev]
        refine walk_means junk f hR ts' segs' t' s' fuel h1 b1 v j' hb1 hv he' hes' (fun u hu => h0 u (List.mem_cons_of_mem _ hu))
          (fun u hu => ht u (List.mem_cons_of_mem _ hu)) (fun n hn => hj n (hnm n hn))
          (by rw [hok]; exact mem.imp id (fun x s hs => x s (List.mem_cons_of_mem _ hs))) ?_
        rw [hj'] at hf
        simp at hf ⊢
        omega
    · match r, hr with
      | none, _ => exact ⟨h1, b1, none, rfl, hb1, Or.inr ⟨hev _, rfl⟩⟩
      | some v, hr => exact hcont v hr hev

end Tm.Json
