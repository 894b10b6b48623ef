import Verif.Xml.FillLemmas

namespace Tm.Xml

open Tm.Uni (utf8 encode Scalar Scalars WellFormed)

/-- A run of the loop, with the pieces that it writes. -/
inductive Runs (step : Unesc → Nat → C (Option Unesc)) : Core → Outcome → List (List Byte) → Prop
  | stop (k : Core) : extract k.cur = none → Runs step k (if k.cur.isEmpty then .done else .stopped) []
  | fail (k : Core) (cp : Nat) (cur : List Byte) : extract k.cur = some (cp, cur) →
    (∀ u, u.core = { k with cur := cur } → step u cp = .ok none) → Runs step k .failed []
  | step (k : Core) (cp : Nat) (cur : List Byte) (k' : Core) (bs : List Byte) (o : Outcome) (ps : List (List Byte)) :
    extract k.cur = some (cp, cur) →
    (∀ u, u.core = { k with cur := cur } → step u cp = .ok (some ((emit u bs).put k'))) →
    Runs step k' o ps → Runs step k o (bs :: ps)

theorem Runs.loop {step : Unesc → Nat → C (Option Unesc)} {k : Core} {o : Outcome} {ps : List (List Byte)}
    (h : Runs step k o ps) : ∀ (fuel : Nat), ps.length < fuel → ∀ u : Unesc, u.core = k →
      unescLoop step fuel u = .ok (conclude u o ps) := by
  induction h with
  | stop k he =>
    intro fuel hf u hu
    obtain ⟨fuel, rfl⟩ : ∃ n, fuel = n + 1 := ⟨fuel - 1, by omega⟩
    unfold unescLoop
    rw [core_cur hu, he, ← core_cur hu]
    show Except.ok (finish u) = _
    rw [finish_conclude]
  | fail k cp cur he hs =>
    intro fuel hf u hu
    obtain ⟨fuel, rfl⟩ : ∃ n, fuel = n + 1 := ⟨fuel - 1, by omega⟩
    unfold unescLoop
    rw [core_cur hu, he]
    dsimp only
    rw [hs { u with cur := cur } (by rw [← hu]; rfl)]
    rfl
  | step k cp cur k' bs o ps he hs hr ih =>
    intro fuel hf u hu
    obtain ⟨fuel, rfl⟩ : ∃ n, fuel = n + 1 := ⟨fuel - 1, by omega⟩
    unfold unescLoop
    rw [core_cur hu, he]
    dsimp only
    rw [hs { u with cur := cur } (by rw [← hu]; rfl)]
    show unescLoop step fuel ((emit { u with cur := cur } bs).put k') = _
    rw [ih fuel (by simp only [List.length_cons] at hf; omega) _ (core_put _ _), conclude_put, conclude_cons]
    have : ({ u with cur := cur } : Unesc) = u.put { u.core with cur := cur } := rfl
    rw [this, emit_put, conclude_put]

/-- The state at the beginning of a character. -/
def start (s : List Byte) (last : Bool) : Core := ⟨s, s, last⟩

/-- No trimming is asked for. -/
def Flags.Verbatim (f : Flags) : Prop := f.left = false ∧ f.right = false ∧ f.reduce = false ∧ f.newlines = false

theorem place_verbatim {f : Flags} (hf : f.Verbatim) (after : List Byte) (u : Unesc) (cp : Nat) (bytes : List Byte) :
    place f after u cp bytes = .ok ((emit u bytes).put { u.core with prev := u.cur }) := by
  obtain ⟨_, _, hr, hn⟩ := hf
  unfold place
  rw [hr, hn, ← next_emit]
  simp

/-! ## Numerals -/

theorem DecDigit.facts {d : Byte} {n : Nat} (h : DecDigit d n) : isDec d = true ∧ digitVal d = n ∧ n < 10 := by
  cases h with
  | mk _ h =>
    have e : (BitVec.ofNat 8 (0x30 + n)).toNat = 0x30 + n := by simp only [BitVec.toNat_ofNat]; omega
    refine ⟨?_, ?_, h⟩
    · unfold isDec; rw [e]; simp; omega
    · unfold digitVal; rw [e, if_pos (by omega)]; omega

theorem HexDigit.facts {d : Byte} {n : Nat} (h : HexDigit d n) : isHex d = true ∧ digitVal d = n ∧ n < 16 := by
  cases h with
  | digit _ h =>
    have e : (BitVec.ofNat 8 (0x30 + n)).toNat = 0x30 + n := by simp only [BitVec.toNat_ofNat]; omega
    refine ⟨?_, ?_, by omega⟩
    · unfold isHex isDec; rw [e]; simp; omega
    · unfold digitVal; rw [e, if_pos (by omega)]; omega
  | lower k h =>
    have e : (BitVec.ofNat 8 (0x61 + k)).toNat = 0x61 + k := by simp only [BitVec.toNat_ofNat]; omega
    refine ⟨?_, ?_, by omega⟩
    · unfold isHex isDec; rw [e]; simp; omega
    · unfold digitVal; rw [e, if_neg (by omega), if_neg (by omega)]; omega
  | upper k h =>
    have e : (BitVec.ofNat 8 (0x41 + k)).toNat = 0x41 + k := by simp only [BitVec.toNat_ofNat]; omega
    refine ⟨?_, ?_, by omega⟩
    · unfold isHex isDec; rw [e]; simp; omega
    · unfold digitVal; rw [e, if_neg (by omega), if_pos (by omega)]; omega

theorem Numeral.facts {digit : Byte → Nat → Prop} {base : Nat} {p : Byte → Bool}
    (hd : ∀ d n, digit d n → p d = true ∧ digitVal d = n ∧ n < base) {ds : List Byte} {n : Nat}
    (h : Numeral digit base ds n) :
    ds ≠ [] ∧ ds.all p = true ∧ ds.foldl (fun n d => n * base + digitVal d) 0 = n ∧ n < base ^ ds.length := by
  induction h with
  | one d n h =>
    obtain ⟨h1, h2, h3⟩ := hd d n h
    exact ⟨by simp, by simp [h1], by simp [h2], by simpa using h3⟩
  | more ds d m n h h' ih =>
    obtain ⟨_, a, b, c⟩ := ih
    obtain ⟨h1, h2, h3⟩ := hd d n h'
    refine ⟨by simp, by simp [h1, List.all_append]; simpa using a, by simp [List.foldl_append, b, h2], ?_⟩
    rw [List.length_append, Nat.pow_add]
    simp only [List.length_cons, List.length_nil, Nat.zero_add, Nat.pow_one]
    have : (m + 1) * base ≤ base ^ ds.length * base := Nat.mul_le_mul_right _ c
    rw [Nat.succ_mul] at this
    omega

theorem isDec_spec {d : Byte} (h : isDec d = true) : DecDigit d (digitVal d) := by
  unfold isDec at h
  simp only [Bool.and_eq_true, decide_eq_true_eq] at h
  have e : digitVal d = d.toNat - 0x30 := by unfold digitVal; rw [if_pos h.2]
  rw [e]
  have := DecDigit.mk (d.toNat - 0x30) (by omega)
  rwa [show 0x30 + (d.toNat - 0x30) = d.toNat by omega, BitVec.ofNat_toNat, BitVec.setWidth_eq] at this

theorem isHex_spec {d : Byte} (h : isHex d = true) : HexDigit d (digitVal d) := by
  unfold isHex isDec at h
  simp only [Bool.or_eq_true, Bool.and_eq_true, decide_eq_true_eq] at h
  rcases h with (h | h) | h
  · have e : digitVal d = d.toNat - 0x30 := by unfold digitVal; rw [if_pos h.2]
    rw [e]
    have := HexDigit.digit (d.toNat - 0x30) (by omega)
    rwa [show 0x30 + (d.toNat - 0x30) = d.toNat by omega, BitVec.ofNat_toNat, BitVec.setWidth_eq] at this
  · have e : digitVal d = 10 + (d.toNat - 0x61) := by
      unfold digitVal; rw [if_neg (by omega), if_neg (by omega)]; omega
    rw [e]
    have := HexDigit.lower (d.toNat - 0x61) (by omega)
    rwa [show 0x61 + (d.toNat - 0x61) = d.toNat by omega, BitVec.ofNat_toNat, BitVec.setWidth_eq] at this
  · have e : digitVal d = 10 + (d.toNat - 0x41) := by
      unfold digitVal; rw [if_neg (by omega), if_pos (by omega)]; omega
    rw [e]
    have := HexDigit.upper (d.toNat - 0x41) (by omega)
    rwa [show 0x41 + (d.toNat - 0x41) = d.toNat by omega, BitVec.ofNat_toNat, BitVec.setWidth_eq] at this

theorem numeral_of_all {digit : Byte → Nat → Prop} {base : Nat} {p : Byte → Bool}
    (hd : ∀ d, p d = true → digit d (digitVal d)) (ds : List Byte) (hne : ds ≠ []) (h : ds.all p = true) :
    Numeral digit base ds (ds.foldl (fun n d => n * base + digitVal d) 0) := by
  obtain ⟨n, hn⟩ : ∃ n, ds.length = n := ⟨_, rfl⟩
  induction n generalizing ds with
  | zero => exact absurd (List.length_eq_zero_iff.mp hn) hne
  | succ n ih =>
    have e := List.dropLast_concat_getLast hne
    generalize ds.dropLast = xs at e
    generalize ds.getLast hne = d at e
    subst e
    simp only [List.all_append, List.all_cons, List.all_nil, Bool.and_true, Bool.and_eq_true] at h
    rw [List.foldl_append]
    simp only [List.foldl_cons, List.foldl_nil]
    cases hx : xs with
    | nil => simp only [List.nil_append, List.foldl_nil, Nat.zero_mul, Nat.zero_add]; exact .one d _ (hd d h.2)
    | cons x xs' =>
      rw [← hx]
      exact .more xs d _ _ (ih xs (by rw [hx]; simp) h.1 (by simp at hn; omega)) (hd d h.2)

/-! ## Character references -/

theorem isDec_not {d : Byte} (h : isDec d = true) : d ≠ 0x3B ∧ d ≠ 0x78 := by
  unfold isDec at h
  simp only [Bool.and_eq_true, decide_eq_true_eq] at h
  constructor <;> · rintro rfl; revert h; decide

theorem isHex_not {d : Byte} (h : isHex d = true) : d ≠ 0x3B ∧ d ≠ 0x78 := by
  unfold isHex isDec at h
  simp only [Bool.or_eq_true, Bool.and_eq_true, decide_eq_true_eq] at h
  constructor <;> · rintro rfl; revert h; decide

theorem takeWhile_stop {ds s : List Byte} (h : ∀ d ∈ ds, d ≠ 0x3B) :
    (ds ++ 0x3B :: s).takeWhile (· != 0x3B) = ds := by
  rw [List.takeWhile_append_of_pos (by simpa using h)]
  simp

theorem charRef_ok {f : Flags} (hf : f.Verbatim) (after : List Byte) (u : Unesc) (base : Nat) (ds rest : List Byte)
    (c : Nat) (hc : XmlChar c) (hv : strtoul base ds = c) :
    charRef f after u base ds rest = .ok (some ((emit u (utf8 c)).put (start rest u.last))) := by
  unfold charRef
  rw [hv, if_pos (validXml_iff.mpr hc), place_verbatim hf, encodeCp_eq hc.scalar]
  show Except.ok (some _) = Except.ok (some _)
  have e : ({ u with cur := rest } : Unesc) = u.put { u.core with cur := rest } := rfl
  rw [e, emit_put, put_put]
  rfl

theorem numeric_dec {f : Flags} (hf : f.Verbatim) (after : List Byte) (u : Unesc) (ds rest : List Byte) (c : Nat)
    (hn : Numeral DecDigit 10 ds c) (hl : ds.length ≤ 10) (hc : XmlChar c) :
    numeric f after u (ds ++ 0x3B :: rest) = .ok (some ((emit u (utf8 c)).put (start rest u.last))) := by
  obtain ⟨hne, hall, hv, hb⟩ := hn.facts (p := isDec) fun d n h => h.facts
  have hnot : ∀ d ∈ ds, d ≠ 0x3B := fun d hd => (isDec_not (List.all_eq_true.mp hall d hd)).1
  unfold numeric
  rw [takeWhile_stop hnot]
  have hpos := List.length_pos_iff.mpr hne
  rw [if_neg (by simp), if_neg (by simp)]
  have hx : ¬ ds.head? = some 0x78 := by
    cases ds with
    | nil => simp
    | cons d ds =>
      simp only [List.head?_cons, Option.some.injEq]
      exact (isDec_not (List.all_eq_true.mp hall d List.mem_cons_self)).2
  dsimp only
  rw [if_neg hx, if_neg (by simp only [Bool.or_eq_true, decide_eq_true_eq]; omega), if_pos hall]
  rw [show (ds ++ 0x3B :: rest).drop (ds.length + 1) = rest by
    rw [← List.drop_drop, List.drop_left]; rfl]
  refine charRef_ok hf after u 10 ds rest c hc ?_
  unfold strtoul
  rw [hv]
  unfold XmlChar at hc
  omega

theorem numeric_hex {f : Flags} (hf : f.Verbatim) (after : List Byte) (u : Unesc) (ds rest : List Byte) (c : Nat)
    (hn : Numeral HexDigit 16 ds c) (hl : ds.length ≤ 8) (hc : XmlChar c) :
    numeric f after u (0x78 :: ds ++ 0x3B :: rest) = .ok (some ((emit u (utf8 c)).put (start rest u.last))) := by
  obtain ⟨hne, hall, hv, hb⟩ := hn.facts (p := isHex) fun d n h => h.facts
  have hnot : ∀ d ∈ (0x78 :: ds : List Byte), d ≠ 0x3B := by
    intro d hd
    rcases List.mem_cons.mp hd with rfl | hd
    · decide
    · exact (isHex_not (List.all_eq_true.mp hall d hd)).1
  unfold numeric
  rw [takeWhile_stop hnot]
  have hpos := List.length_pos_iff.mpr hne
  rw [if_neg (by simp), if_neg (by simp)]
  dsimp only
  rw [if_pos (by simp), if_neg (show ¬ ((decide ((0x78 :: ds).tail.length = 0) || decide ((0x78 :: ds).tail.length > 8)) = true) by
    simp only [Bool.or_eq_true, decide_eq_true_eq]; show ¬ (ds.length = 0 ∨ ds.length > 8); omega), if_pos (by exact hall)]
  rw [show (0x78 :: ds ++ 0x3B :: rest).drop ((0x78 :: ds).length + 1) = rest by
    rw [← List.drop_drop, List.drop_left]; rfl]
  refine charRef_ok hf after u 16 ds rest c hc ?_
  unfold strtoul
  rw [hv]
  unfold XmlChar at hc
  omega

/-! ## Texts that stand for something -/

theorem utf8_ne_nil (c : Nat) : utf8 c ≠ [] := by
  unfold utf8
  split
  · simp
  · split
    · simp
    · split <;> simp

theorem ascii_amp : ascii "&" = [0x26] := by decide
theorem ascii_ref : ascii "&#" = [0x26, 0x23] := by decide
theorem ascii_hex : ascii "&#x" = [0x26, 0x23, 0x78] := by decide
theorem ascii_semi : ascii ";" = [0x3B] := by decide
theorem ascii_num : ascii "#" = [0x23] := by decide
theorem ascii_end : ascii "]]>" = [0x5D, 0x5D, 0x3E] := by decide
theorem entities_eq : entities =
    [([0x6C, 0x74, 0x3B], 0x3C), ([0x61, 0x6D, 0x70, 0x3B], 0x26), ([0x71, 0x75, 0x6F, 0x74, 0x3B], 0x22),
     ([0x61, 0x70, 0x6F, 0x73, 0x3B], 0x27), ([0x67, 0x74, 0x3B], 0x3E)] := by decide

theorem ampersand_entity (f : Flags) (after : List Byte) {e : List Byte} {c : Nat} (he : (e, c) ∈ entities) (s : List Byte)
    (u : Unesc) (hu : u.cur = e ++ s) :
    ampersand f after u = .ok (some ((emit u (utf8 c)).put (start s u.last))) := by
  have key : ∀ (b : Byte) (n : Nat), u.cur.drop n = s →
      named u b n = .ok (some ((emit u [b]).put (start s u.last))) := by
    intro b n hd
    unfold named
    rw [hd]
    unfold next Unesc.put start
    simp
  rw [entities_eq] at he
  unfold ampersand
  simp only [List.mem_cons, Prod.mk.injEq, List.not_mem_nil, or_false] at he
  rcases he with ⟨rfl, rfl⟩ | ⟨rfl, rfl⟩ | ⟨rfl, rfl⟩ | ⟨rfl, rfl⟩ | ⟨rfl, rfl⟩ <;>
  · simp only [hu, List.cons_append, List.nil_append]
    simp [List.isPrefixOf]
    rw [key _ _ (by rw [hu]; rfl)]
    rfl

theorem prefix_iff {p s : List Byte} : p.isPrefixOf s = true ↔ p <+: s := List.isPrefixOf_iff_prefix

theorem ampersand_custom (f : Flags) (after : List Byte) (u : Unesc)
    (h1 : ∀ p ∈ entities, ¬ p.1 <+: u.cur) (h2 : ¬ ascii "#" <+: u.cur) (h3 : (0x3B : Byte) ∈ u.cur) :
    ampersand f after u = .ok (some ((emit u [0x26]).put (start u.cur u.last))) := by
  rw [entities_eq] at h1
  simp only [List.mem_cons, List.not_mem_nil, or_false, forall_eq_or_imp, forall_eq] at h1
  obtain ⟨a1, a2, a3, a4, a5⟩ := h1
  rw [← prefix_iff] at a1 a2 a3 a4 a5
  unfold ampersand
  have hne : ¬ u.cur.isEmpty = true := by
    intro h; rw [List.isEmpty_iff.mp h] at h3; simp at h3
  have hh : ¬ u.cur.head? = some 0x23 := by
    intro h
    apply h2
    rw [ascii_num]
    cases hc : u.cur with
    | nil => rw [hc] at h; simp at h
    | cons b r => rw [hc] at h; simp at h; subst h; exact ⟨r, rfl⟩
  rw [if_neg hne, if_neg hh, if_neg a1, if_neg a2, if_neg a3, if_neg a4, if_neg a5,
    if_pos (List.contains_iff_mem.mpr h3), next_emit]
  rfl

theorem utf8_eq_ascii {c : Nat} (hc : Scalar c) {b : Byte} {s s' : List Byte} (hb : b.toNat < 0x80)
    (h : utf8 c ++ s = b :: s') : c = b.toNat ∧ s = s' := by
  have h1 := extract_utf8 hc s
  rw [h, extract_ascii hb] at h1
  cases h1
  exact ⟨rfl, rfl⟩

theorem Denotes.runs {f : Flags} (hf : f.Verbatim) (after : List Byte) {s : List Byte} {t : List Nat} (h : Denotes s t)
    (last : Bool) : Runs (unescStep f after) (start s last) .done (t.map utf8) := by
  have amp : ∀ s : List Byte, extract (ascii "&" ++ s) = some (0x26, s) := fun s => by
    rw [ascii_amp]; exact extract_ascii (b := 0x26) (by decide) s
  have stepAmp : ∀ u, unescStep f after u 0x26 = ampersand f after u := fun u => by simp [unescStep]
  induction h with
  | nil => exact Runs.stop _ extract_nil
  | char c s t hc h1 h2 h3 hs ih =>
    refine .step _ c s (start s last) (utf8 c) _ _ (extract_utf8 hc.scalar s) ?_ ih
    intro u hu
    unfold unescStep
    rw [if_neg (by unfold XmlChar at hc; omega), if_neg h1, if_neg h2]
    split
    · rename_i h5
      subst h5
      have : ¬ ([0x5D, 0x3E].isPrefixOf u.cur = true) := by
        rw [prefix_iff, core_cur hu]
        intro hp
        apply h3
        rw [ascii_end]
        show _ <+: 0x5D :: s
        exact List.cons_prefix_cons.mpr ⟨rfl, hp⟩
      rw [if_neg (by intro hx; exact this (Bool.and_eq_true_iff.mp hx).2), next_emit, hu, core_cur hu]
      rfl
    · unfold plain
      rw [if_pos (validXml_iff.mpr hc), place_verbatim hf]
      have e : u.prev.take (u.prev.length - u.cur.length) = utf8 c := by
        rw [core_prev hu, core_cur hu]
        show List.take ((utf8 c ++ s).length - s.length) (utf8 c ++ s) = utf8 c
        rw [List.length_append, Nat.add_sub_cancel, List.take_left]
      rw [e, hu, core_cur hu]
      rfl
  | entity e c s t he hs ih =>
    refine .step _ 0x26 (e ++ s) (start s last) (utf8 c) _ _ ?_ ?_ ih
    · show extract (ascii "&" ++ e ++ s) = _
      rw [List.append_assoc]; exact amp _
    · intro u hu
      rw [stepAmp, ampersand_entity f after he s u (core_cur hu), core_last hu]; rfl
  | dec ds c s t hn hl hc hs ih =>
    refine .step _ 0x26 (0x23 :: (ds ++ 0x3B :: s)) (start s last) (utf8 c) _ _ ?_ ?_ ih
    · rw [show (start (ascii "&#" ++ ds ++ ascii ";" ++ s) last).cur = ascii "&" ++ (0x23 :: (ds ++ 0x3B :: s)) by
        show ascii "&#" ++ ds ++ ascii ";" ++ s = _
        rw [ascii_ref, ascii_semi, ascii_amp]; simp]
      exact amp _
    · intro u hu
      rw [stepAmp]
      unfold ampersand
      rw [core_cur hu]
      dsimp only
      rw [if_neg (by simp), if_pos (by simp)]
      simp only [List.tail_cons]
      rw [numeric_dec hf after u ds s c hn hl hc, core_last hu]; rfl
  | hex ds c s t hn hl hc hs ih =>
    refine .step _ 0x26 (0x23 :: (0x78 :: ds ++ 0x3B :: s)) (start s last) (utf8 c) _ _ ?_ ?_ ih
    · rw [show (start (ascii "&#x" ++ ds ++ ascii ";" ++ s) last).cur = ascii "&" ++ (0x23 :: (0x78 :: ds ++ 0x3B :: s)) by
        show ascii "&#x" ++ ds ++ ascii ";" ++ s = _
        rw [ascii_hex, ascii_semi, ascii_amp]; simp]
      exact amp _
    · intro u hu
      rw [stepAmp]
      unfold ampersand
      rw [core_cur hu]
      dsimp only
      rw [if_neg (by simp), if_pos (by simp)]
      simp only [List.tail_cons]
      rw [numeric_hex hf after u ds s c hn hl hc, core_last hu]; rfl
  | custom s t h1 h2 h3 hs ih =>
    refine .step _ 0x26 s (start s last) (utf8 0x26) _ _ (amp s) ?_ ih
    intro u hu
    have hcu : u.cur = s := core_cur hu
    rw [stepAmp, ampersand_custom f after u (by rw [hcu]; exact h1) (by rw [hcu]; exact h2) (by rw [hcu]; exact h3), hcu,
      core_last hu]
    rfl

theorem Denotes.length_le {s : List Byte} {t : List Nat} (h : Denotes s t) : t.length ≤ s.length := by
  induction h with
  | nil => simp
  | char c s t hc h1 h2 h3 hs ih =>
    have := List.length_pos_iff.mpr (utf8_ne_nil c)
    simp only [List.length_cons, List.length_append]; omega
  | entity e c s t he hs ih => rw [ascii_amp]; simp only [List.length_cons, List.length_append, List.length_nil]; omega
  | dec ds c s t hn hl hc hs ih => rw [ascii_ref]; simp only [List.length_cons, List.length_append, List.length_nil]; omega
  | hex ds c s t hn hl hc hs ih => rw [ascii_hex]; simp only [List.length_cons, List.length_append, List.length_nil]; omega
  | custom s t h1 h2 h3 hs ih => rw [ascii_amp]; simp only [List.length_cons, List.length_append, List.length_nil]; omega

end Tm.Xml
