import Verif.Fmt.Parse
/-! # Whole format strings -/
namespace Tm.Fmt
open Tm.Num Tm.Conv Tm.Dbl

/-! ## arguments -/

theorem printDouble_congr {v v' : Double} {fl fl' : BitVec 32} (hv : v.2 = v'.2) (h3 : fl.getLsbD 3 = fl'.getLsbD 3) (h4 : fl.getLsbD 4 = fl'.getLsbD 4)
    (h6 : fl.getLsbD 6 = fl'.getLsbD 6) (hm : (fl.getLsbD 7 && v.1 || less v) = (fl'.getLsbD 7 && v'.1 || less v')) (buf : List Byte) (dest maxlen : Nat)
    (precision : Int) : printDouble buf dest maxlen v fl precision = printDouble buf dest maxlen v' fl' precision := by
  have hu : ∀ start o, Dbl.printUnsigned start o v.2 fl precision = Dbl.printUnsigned start o v'.2 fl' precision := by
    intro start o
    rw [hv]
    unfold Dbl.printUnsigned
    cases v'.2 with
    | nan => dsimp only; rw [h6]
    | inf => dsimp only; rw [h6]
    | fin q => dsimp only; rw [printFinite, printFinite, h3, h4]
  unfold less at hm
  rw [printDouble, printDouble]
  dsimp only
  rw [hm]
  simp only [hu]

theorem low_bits (s : Spec) (f : PrintFormat) (h : Means s f) (i : Nat) (hi : i < 7) : (f.flags &&& 0xFF).getLsbD i = s.doubleFlags.getLsbD i := by
  rw [h.low, BitVec.getLsbD_or]
  have : (if s.has 43 = true then (128 : BitVec 32) else 0).getLsbD i = false := by
    split <;> (interval_cases i <;> decide)
  rw [this, Bool.or_false]

theorem low_sign (s : Spec) (f : PrintFormat) (h : Means s f) : (f.flags &&& 0xFF).getLsbD 7 = s.has 43 := by
  rw [BitVec.getLsbD_and, show (0xFF : BitVec 32).getLsbD 7 = true by decide, Bool.and_true]
  exact h.sign

theorem float_appends (alloc : Alloc) {s : Spec} {f : PrintFormat} (h : Means s f) {v : Double} (hr : s.radix = [])
    (hs : s.has 43 = true → v.1 = true → less v = true) {d : List Byte} (hd : WritesDouble (false, v.2) s.doubleFlags s.decimals d)
    (hw : s.minimum ≤ (s.sign (less v) ++ d).length) (hl : d.length < 199) :
    Appends alloc (s.layout (s.sign (less v)) d)
      (printValue alloc (fun buf dest maxlen => formattedFloat buf dest maxlen f v) (floatSize f v)) := by
  have hless : isLess v = less v := rfl
  have hp : prefixBytes f = [] := by rw [h.prefix, hr]
  have hwid : f.width.toNat ≤ (signBytes f (isLess v) ++ d).length := by
    rw [h.width, h.signs, hless, Int.toNat_natCast]; exact hw
  rw [← h.layout, ← hless, layoutOf_plain hp hwid]
  refine printFloat_appends alloc hp h.onePrefix ?_ hwid hl
  intro buf dest maxlen hroom
  rw [h.precision]
  have := hd buf dest maxlen hroom
  have e : printDouble buf dest maxlen (makeUnsigned v).1 (f.flags &&& 0xFF) s.decimals
      = printDouble buf dest maxlen (false, v.2) s.doubleFlags s.decimals := by
    refine printDouble_congr ?_ (low_bits s f h 3 (by decide)) (low_bits s f h 4 (by decide)) (low_bits s f h 6 (by decide)) ?_ _ _ _ _
    · rw [makeUnsigned]; dsimp only; split <;> rfl
    · rw [low_sign s f h]
      have hf : less (false, v.2) = false := by simp [less]
      rw [hf, Bool.and_false, Bool.or_false, makeUnsigned]
      dsimp only
      by_cases hn : isLess v = true
      · rw [if_pos hn, hf]; simp
      · rw [if_neg hn, ← hless]
        cases h1 : s.has 43 with
        | false => simpa using hn
        | true =>
          cases h2 : v.1 with
          | false => simpa [h2] using hn
          | true => exact absurd (hs h1 h2) hn
  rw [e]
  exact this

theorem cstring_spec {m b : List Byte} (h : IsCString m b) : cstring m = .ok b := by
  obtain ⟨h1, rest, rfl⟩ := h
  induction b with
  | nil => rfl
  | cons c cs ih =>
    have hc : c ≠ 0 := fun e => h1 (by simp [e])
    rw [List.cons_append]
    unfold cstring
    split
    · rename_i e; cases e
    · rename_i e; injection e with e1 _; exact absurd e1 hc
    · rename_i c' cs' _ e
      injection e with e1 e2
      subst e1 e2
      rw [ih (fun x => h1 (List.mem_cons_of_mem _ x)), ok_bind]

theorem str_plain {s : Spec} {t : List Byte} (h : s.minimum ≤ t.length) : s.str t = t := by
  rw [Spec.str, Nat.sub_eq_zero_of_le h]
  split <;> simp

theorem char_toInt (c : Byte) : (c.signExtend 32).toInt = c.toInt := by
  rw [BitVec.toInt_signExtend]
  have h1 := BitVec.le_toInt c
  have h2 := BitVec.toInt_lt (x := c)
  rw [Int.bmod_def, show min 32 8 = 8 by decide]
  simp only [Nat.reduceSub, Int.reducePow, Nat.reducePow] at *
  omega

theorem printArg_appends (alloc : Alloc) {s : Spec} {f : PrintFormat} (h : Means s f) {a : Arg} {t : List Byte} (ha : Fine s a)
    (ht : ArgText s a t) : Appends alloc t (fun p => printArg alloc p a.type a f) := by
  have hb := h.baseOk
  have ho := h.onePrefix
  have hs : ∀ {w : Nat} (hw : w = 32 ∨ w = 64) (v : BitVec w), v ≠ BitVec.intMin w → Appends alloc (s.int v.toInt) (fun p => printSigned alloc p v f) := by
    intro w hw v hv
    have := printSigned_appends alloc hw v hb ho hv
    rwa [h.number_text] at this
  have hu : ∀ {w : Nat} (hw : w = 32 ∨ w = 64) (v : BitVec w), Appends alloc (s.int v.toNat) (fun p => printUnsigned alloc p v f false) := by
    intro w hw v
    have := printUnsigned_appends alloc hw v hb ho false
    rw [← h.number_text]
    have e : decide ((v.toNat : Int) < 0) = false := by simp
    rw [e]
    exact this
  have hstr : ∀ b : List Byte, s.minimum ≤ b.length → b.length < 2 ^ 31 → Appends alloc (s.str b) (fun p => printStringValue alloc p b f) := by
    intro b h1 h2
    rw [str_plain h1]
    exact printStringValue_appends alloc b (by rw [h.width]; exact h1) h2
  cases a with
  | char c =>
    simp only [ArgText] at ht
    simp only [printArg, ne_eq, not_true, if_false, h.char]
    by_cases hc : s.is 99 = true
    · rw [if_pos hc] at ht
      simp only [hc, if_true, ht]
      exact printChar_appends alloc c
    · rw [if_neg hc] at ht
      simp only [hc, Bool.false_eq_true, if_false, ht]
      rw [← char_toInt]
      refine hs (.inl rfl) _ (fun e => ?_)
      have := char_toInt c
      rw [e] at this
      have h1 := BitVec.le_toInt c
      rw [BitVec.toInt_intMin] at this
      simp at this h1
      omega
  | bool b =>
    simp only [ArgText] at ht
    simp only [Fine] at ha
    simp only [printArg, ne_eq, not_true, if_false, ht]
    rw [str_plain ha, ← h.bool_word]
    exact printBool_appends alloc (by rw [h.width, h.bool_word]; exact ha)
  | i32 v =>
    simp only [ArgText] at ht
    simp only [printArg, ne_eq, not_true, if_false, ht]
    exact hs (.inl rfl) v ha
  | u32 v =>
    simp only [ArgText] at ht
    simp only [printArg, ne_eq, not_true, if_false, ht]
    exact hu (.inl rfl) v
  | i64 v =>
    simp only [ArgText] at ht
    simp only [printArg, ne_eq, not_true, if_false, ht]
    exact hs (.inr rfl) v ha
  | u64 v =>
    simp only [ArgText] at ht
    simp only [printArg, ne_eq, not_true, if_false, ht]
    exact hu (.inr rfl) v
  | float v =>
    obtain ⟨d, h1, h2⟩ := ht
    obtain ⟨a1, a2, a3⟩ := ha
    simp only [printArg, ne_eq, not_true, if_false, h2]
    exact float_appends alloc h a1 a2 h1 (a3 d h1).1 (a3 d h1).2
  | double v =>
    obtain ⟨d, h1, h2⟩ := ht
    obtain ⟨a1, a2, a3⟩ := ha
    simp only [printArg, ne_eq, not_true, if_false, h2]
    exact float_appends alloc h a1 a2 h1 (a3 d h1).1 (a3 d h1).2
  | str m =>
    cases m with
    | none => exact absurd ha (by simp [Fine])
    | some m =>
      obtain ⟨b, h1, h2⟩ := ht
      obtain ⟨a1, a2⟩ := ha b h1
      simp only [printArg, ne_eq, not_true, if_false, h2, cstring_spec h1, ok_bind]
      exact hstr b a1 a2
  | view b =>
    simp only [ArgText] at ht
    simp only [printArg, ne_eq, not_true, if_false, ht]
    exact hstr b ha.1 ha.2

/-! ## sequences -/

/-- The operation appends `t`, or a part of it if there is no memory. -/
structure Prints (alloc : Alloc) (t : List Byte) (op : Printer → C (Printer × Bool)) : Prop where
  fixed : ∀ buf len out p, Fixed buf len out p → ∃ p', op p = .ok (p', true) ∧ Fixed buf len (out ++ t) p'
  growing : AllocOk alloc → ∀ out p, Growing out p → (∃ p', op p = .ok (p', true) ∧ Growing (out ++ t) p') ∨
    (∃ p' u, op p = .ok (p', false) ∧ p'.ec = .enomem ∧ p'.data.take p'.size = out ++ u ∧ u <+: t ∧ Refuses alloc)

/-- The run ends after `t` was appended, or a part of it if there is no memory. -/
structure Ends (alloc : Alloc) (t : List Byte) (run : Printer → C Printer) : Prop where
  fixed : ∀ buf len out p, Fixed buf len out p → ∃ p', run p = .ok p' ∧ Fixed buf len (out ++ t) p'
  growing : AllocOk alloc → ∀ out p, Growing out p → (∃ p', run p = .ok p' ∧ Growing (out ++ t) p') ∨
    (∃ p' u, run p = .ok p' ∧ p'.ec = .enomem ∧ p'.data.take p'.size = out ++ u ∧ u <+: t ∧ Refuses alloc)

theorem Appends.prints {alloc : Alloc} {t : List Byte} {op : Printer → C (Printer × Bool)} (h : Appends alloc t op) : Prints alloc t op :=
  ⟨h.fixed, fun ha out p hp => by
    rcases h.growing ha out p hp with h1 | ⟨p', e1, e2, e3, e4⟩
    · exact .inl h1
    · exact .inr ⟨p', [], e1, e2, by rw [e3, List.append_nil], List.nil_prefix, e4⟩⟩

theorem Prints.seq {alloc : Alloc} {t u : List Byte} {op k : Printer → C (Printer × Bool)} (h : Prints alloc t op) (hk : Prints alloc u k) :
    Prints alloc (t ++ u) (fun p => do
      let r ← op p
      if !r.2 then .ok (r.1, false) else k r.1) := by
  constructor
  · intro buf len out p hp
    obtain ⟨p1, e1, e2⟩ := h.fixed buf len out p hp
    obtain ⟨p2, e3, e4⟩ := hk.fixed buf len _ p1 e2
    refine ⟨p2, ?_, by rw [← List.append_assoc]; exact e4⟩
    rw [e1, ok_bind]
    simp only [Bool.not_true, Bool.false_eq_true, if_false]
    exact e3
  · intro ha out p hp
    rcases h.growing ha out p hp with ⟨p1, e1, e2⟩ | ⟨p1, w, e1, e2, e3, e4, e5⟩
    · rcases hk.growing ha _ p1 e2 with ⟨p2, e3, e4⟩ | ⟨p2, w, e3, e4, e5, e6, e7⟩
      · refine .inl ⟨p2, ?_, by rw [← List.append_assoc]; exact e4⟩
        rw [e1, ok_bind]
        simp only [Bool.not_true, Bool.false_eq_true, if_false]
        exact e3
      · refine .inr ⟨p2, t ++ w, ?_, e4, by rw [e5, List.append_assoc], List.prefix_append_right_inj t |>.mpr e6, e7⟩
        rw [e1, ok_bind]
        simp only [Bool.not_true, Bool.false_eq_true, if_false]
        exact e3
    · refine .inr ⟨p1, w, ?_, e2, e3, e4.trans (List.prefix_append _ _), e5⟩
      rw [e1, ok_bind]
      simp only [Bool.not_false, if_true]

theorem Prints.ends {alloc : Alloc} {t u : List Byte} {op : Printer → C (Printer × Bool)} {k : Printer → C Printer} (h : Prints alloc t op)
    (hk : Ends alloc u k) :
    Ends alloc (t ++ u) (fun p => do
      let r ← op p
      if !r.2 then .ok r.1 else k r.1) := by
  constructor
  · intro buf len out p hp
    obtain ⟨p1, e1, e2⟩ := h.fixed buf len out p hp
    obtain ⟨p2, e3, e4⟩ := hk.fixed buf len _ p1 e2
    refine ⟨p2, ?_, by rw [← List.append_assoc]; exact e4⟩
    rw [e1, ok_bind]
    simp only [Bool.not_true, Bool.false_eq_true, if_false]
    exact e3
  · intro ha out p hp
    rcases h.growing ha out p hp with ⟨p1, e1, e2⟩ | ⟨p1, w, e1, e2, e3, e4, e5⟩
    · rcases hk.growing ha _ p1 e2 with ⟨p2, e3, e4⟩ | ⟨p2, w, e3, e4, e5, e6, e7⟩
      · refine .inl ⟨p2, ?_, by rw [← List.append_assoc]; exact e4⟩
        rw [e1, ok_bind]
        simp only [Bool.not_true, Bool.false_eq_true, if_false]
        exact e3
      · refine .inr ⟨p2, t ++ w, ?_, e4, by rw [e5, List.append_assoc], List.prefix_append_right_inj t |>.mpr e6, e7⟩
        rw [e1, ok_bind]
        simp only [Bool.not_true, Bool.false_eq_true, if_false]
        exact e3
    · refine .inr ⟨p1, w, ?_, e2, e3, e4.trans (List.prefix_append _ _), e5⟩
      rw [e1, ok_bind]
      simp only [Bool.not_false, if_true]

theorem prints_nothing (alloc : Alloc) : Prints alloc [] (fun p => .ok (p, true)) :=
  ⟨fun _ _ _ p h => ⟨p, rfl, by rw [List.append_nil]; exact h⟩, fun _ _ p h => .inl ⟨p, rfl, by rw [List.append_nil]; exact h⟩⟩

theorem Prints.last {alloc : Alloc} {t : List Byte} {op : Printer → C (Printer × Bool)} (h : Prints alloc t op) :
    Ends alloc t (fun p => do
      let r ← op p
      .ok r.1) := by
  constructor
  · intro buf len out p hp
    obtain ⟨p1, e1, e2⟩ := h.fixed buf len out p hp
    exact ⟨p1, by rw [e1, ok_bind], e2⟩
  · intro ha out p hp
    rcases h.growing ha out p hp with ⟨p1, e1, e2⟩ | ⟨p1, w, e1, e2⟩
    · exact .inl ⟨p1, by rw [e1, ok_bind], e2⟩
    · exact .inr ⟨p1, w, by rw [e1, ok_bind], e2⟩

/-! ## text between placeholders -/

/-- A part that is not opened by a brace. -/
def Part.Plain : Part → Prop
  | .lit c => c ≠ 123 ∧ c ≠ 125
  | .closeBrace => True
  | _ => False

/-- What plain parts print. -/
def plainOut : List Part → List Byte
  | [] => []
  | .lit c :: ps => c :: plainOut ps
  | _ :: ps => 125 :: plainOut ps

theorem find_none {pre mid post : List Byte} {c : Byte} (h : c ∉ mid) :
    find (pre ++ mid ++ post) pre.length (pre.length + mid.length) c = .ok none := by
  rw [find, if_neg (by simp)]
  have e : ((pre ++ mid ++ post).drop pre.length).take (pre.length + mid.length - pre.length) = mid := by
    rw [List.append_assoc, List.drop_left, Nat.add_sub_cancel_left, List.take_left]
  rw [e, List.findIdx?_eq_none_iff.mpr]
  · rfl
  · intro x hx
    simp only [beq_eq_false_iff_ne, ne_eq]
    rintro rfl
    exact h hx

theorem find_some {pre mid post : List Byte} {c : Byte} (h : c ∉ mid) {last : Nat} (hl : pre.length + mid.length < last)
    (hm : last ≤ (pre ++ mid ++ c :: post).length) :
    find (pre ++ mid ++ c :: post) pre.length last c = .ok (some (pre.length + mid.length)) := by
  rw [find, if_neg (by simp at hm ⊢; omega)]
  have e : ((pre ++ mid ++ c :: post).drop pre.length).take (last - pre.length) = mid ++ c :: (post.take (last - pre.length - mid.length - 1)) := by
    rw [List.append_assoc, List.drop_left, List.take_append, List.take_of_length_le (by omega)]
    congr 1
    rw [show last - pre.length - mid.length = (last - pre.length - mid.length - 1) + 1 by omega, List.take_succ_cons]
    rfl
  rw [e, List.findIdx?_append, List.findIdx?_eq_none_iff.mpr]
  · rw [List.findIdx?_cons]; simp
  · intro x hx
    simp only [beq_eq_false_iff_ne, ne_eq]
    rintro rfl
    exact h hx

theorem printEscaped_prints (alloc : Alloc) (st : List Part) (hst : ∀ x ∈ st, x.Plain) (pre ls post : List Byte) (hls : (125 : Byte) ∉ ls) (fuel : Nat)
    (hf : st.length < fuel) :
    Prints alloc (ls ++ plainOut st)
      (printEscaped alloc (pre ++ (ls ++ formatText st) ++ post) (pre.length + (ls ++ formatText st).length) fuel pre.length) := by
  induction st generalizing pre ls fuel with
  | nil =>
    obtain ⟨fuel, rfl⟩ : ∃ k, fuel = k + 1 := ⟨fuel - 1, by simp at hf; omega⟩
    simp only [formatText, List.flatMap_nil, List.append_nil, plainOut]
    have e : printEscaped alloc (pre ++ ls ++ post) (pre.length + ls.length) (fuel + 1) pre.length
        = fun p => if ls = [] then .ok (p, true) else printText alloc p ls := by
      funext p
      rw [printEscaped, find_none hls, ok_bind]
      dsimp only
      by_cases h0 : ls = []
      · subst h0; simp
      · have : 0 < ls.length := List.length_pos_of_ne_nil h0
        rw [if_pos (by omega), if_neg h0, List.append_assoc, List.drop_left, Nat.add_sub_cancel_left, List.take_left]
    rw [e]
    by_cases h0 : ls = []
    · subst h0; simp only [if_true]; exact prints_nothing alloc
    · simp only [h0, if_false]; exact (printText_appends alloc ls).prints
  | cons x st ih =>
    have hx := hst x (by simp)
    have hst' : ∀ y ∈ st, y.Plain := fun y hy => hst y (by simp [hy])
    cases x with
    | lit c =>
      have hm : (125 : Byte) ∉ ls ++ [c] := by
        intro hmem
        rcases List.mem_append.mp hmem with h | h
        · exact hls h
        · rw [List.mem_singleton] at h; exact hx.2 h.symm
      have := ih hst' pre (ls ++ [c]) hm fuel (by simp at hf; omega)
      simpa only [formatText, List.flatMap_cons, Part.written, plainOut, List.append_assoc, List.singleton_append, List.cons_append, List.nil_append] using this
    | openBrace => exact absurd hx (by simp [Part.Plain])
    | field f => exact absurd hx (by simp [Part.Plain])
    | closeBrace =>
      obtain ⟨fuel, rfl⟩ : ∃ k, fuel = k + 1 := ⟨fuel - 1, by simp at hf; omega⟩
      have ih := ih hst' (pre ++ ls ++ [125, 125]) [] (by simp) fuel (by simp at hf; omega)
      have ht : formatText (.closeBrace :: st) = 125 :: 125 :: formatText st := rfl
      rw [ht]
      have hmem : pre ++ (ls ++ 125 :: 125 :: formatText st) ++ post = pre ++ ls ++ 125 :: (125 :: formatText st ++ post) := by simp
      have hmem' : pre ++ (ls ++ 125 :: 125 :: formatText st) ++ post = pre ++ ls ++ [125, 125] ++ ([] ++ formatText st) ++ post := by simp
      have hlast : pre.length + (ls ++ 125 :: 125 :: formatText st).length = (pre ++ ls ++ [125, 125]).length + ([] ++ formatText st).length := by
        simp; omega
      have e : printEscaped alloc (pre ++ (ls ++ 125 :: 125 :: formatText st) ++ post) (pre.length + (ls ++ 125 :: 125 :: formatText st).length) (fuel + 1)
          pre.length = fun p => (do
            let r ← printText alloc p (ls ++ [125])
            if !r.2 then .ok (r.1, false) else
              printEscaped alloc (pre ++ ls ++ [125, 125] ++ ([] ++ formatText st) ++ post)
                ((pre ++ ls ++ [125, 125]).length + ([] ++ formatText st).length) fuel (pre ++ ls ++ [125, 125]).length r.1) := by
        funext p
        rw [printEscaped]
        conv => lhs; rw [hmem]
        rw [find_some hls (by simp) (by simp), ok_bind]
        dsimp only
        have e1 : ((pre ++ ls ++ 125 :: (125 :: formatText st ++ post)).drop pre.length).take (pre.length + ls.length + 1 - pre.length) = ls ++ [125] := by
          rw [List.append_assoc, List.drop_left, show pre.length + ls.length + 1 - pre.length = ls.length + 1 by omega, List.take_append]
          simp
        rw [e1]
        congr 1
        funext r
        by_cases hr : r.2 = true
        · simp only [hr, Bool.not_true, Bool.false_eq_true, if_false]
          rw [if_neg (by simp; omega)]
          have e2 : rd (pre ++ ls ++ 125 :: (125 :: formatText st ++ post)) (pre.length + ls.length + 1) = .ok 125 := by
            rw [rd, List.getElem?_append_right (by simp)]
            simp
          rw [e2, ok_bind, if_neg (by simp), ← hmem, hmem', hlast]
          congr 1
          simp; omega
        · rw [if_pos (by simp [hr]), if_pos (by simp [hr])]
      rw [e]
      have := (printText_appends alloc (ls ++ [125])).prints.seq ih
      simpa only [plainOut, List.append_assoc, List.singleton_append, List.nil_append, List.cons_append] using this

/-! ## whole format strings -/

theorem split_plain (ps : List Part) (hok : ∀ x ∈ ps, x.Ok) : ∃ st rest, ps = st ++ rest ∧ (∀ x ∈ st, x.Plain) ∧
    (rest = [] ∨ (∃ r, rest = .openBrace :: r) ∨ ∃ f r, rest = .field f :: r) := by
  induction ps with
  | nil => exact ⟨[], [], rfl, by simp, .inl rfl⟩
  | cons x ps ih =>
    obtain ⟨st, rest, h1, h2, h3⟩ := ih (fun y hy => hok y (by simp [hy]))
    have hx := hok x (by simp)
    cases x with
    | lit c => exact ⟨.lit c :: st, rest, by rw [h1]; rfl, by
        intro y hy
        rcases List.mem_cons.mp hy with rfl | hy
        · exact hx
        · exact h2 y hy, h3⟩
    | closeBrace => exact ⟨.closeBrace :: st, rest, by rw [h1]; rfl, by
        intro y hy
        rcases List.mem_cons.mp hy with rfl | hy
        · trivial
        · exact h2 y hy, h3⟩
    | openBrace => exact ⟨[], .openBrace :: ps, rfl, by simp, .inr (.inl ⟨ps, rfl⟩)⟩
    | field f => exact ⟨[], .field f :: ps, rfl, by simp, .inr (.inr ⟨f, ps, rfl⟩)⟩

theorem renders_plain {args : List Arg} {i : Nat} {st rest : List Part} {out : List Byte} (hst : ∀ x ∈ st, x.Plain)
    (h : Renders args i (st ++ rest) out) : ∃ o, Renders args i rest o ∧ out = plainOut st ++ o := by
  induction st generalizing out with
  | nil => exact ⟨out, h, rfl⟩
  | cons x st ih =>
    have hx := hst x (by simp)
    have ih := fun {out} => ih (out := out) (fun y hy => hst y (by simp [hy]))
    cases x with
    | lit c =>
      obtain ⟨o, h1, h2⟩ := h
      obtain ⟨o', h3, h4⟩ := ih h1
      exact ⟨o', h3, by rw [h2, h4]; rfl⟩
    | closeBrace =>
      obtain ⟨o, h1, h2⟩ := h
      obtain ⟨o', h3, h4⟩ := ih h1
      exact ⟨o', h3, by rw [h2, h4]; rfl⟩
    | openBrace => exact absurd hx (by simp [Part.Plain])
    | field f => exact absurd hx (by simp [Part.Plain])

theorem fine_plain {args : List Arg} {i : Nat} {st rest : List Part} (hst : ∀ x ∈ st, x.Plain)
    (h : AllFine args i (st ++ rest)) : AllFine args i rest := by
  induction st with
  | nil => exact h
  | cons x st ih =>
    have hx := hst x (by simp)
    have ih := ih (fun y hy => hst y (by simp [hy]))
    cases x with
    | lit c => exact ih h
    | closeBrace => exact ih h
    | openBrace => exact absurd hx (by simp [Part.Plain])
    | field f => exact absurd hx (by simp [Part.Plain])

theorem braces_plain {seen : Bool} {st rest : List Part} (hst : ∀ x ∈ st, x.Plain) (h : BracesFine seen (st ++ rest)) :
    BracesFine (seen || decide (Part.closeBrace ∈ st)) rest := by
  induction st generalizing seen with
  | nil => simpa using h
  | cons x st ih =>
    have hx := hst x (by simp)
    have ih := fun {seen} => ih (seen := seen) (fun y hy => hst y (by simp [hy]))
    cases x with
    | lit c =>
      have := ih (show BracesFine seen (st ++ rest) from h)
      simpa using this
    | closeBrace =>
      have := ih (show BracesFine true (st ++ rest) from h)
      simpa using this
    | openBrace => exact absurd hx (by simp [Part.Plain])
    | field f => exact absurd hx (by simp [Part.Plain])

theorem plain_no_open {st : List Part} (hst : ∀ x ∈ st, x.Plain) : (123 : Byte) ∉ formatText st := by
  intro h
  obtain ⟨x, hx, hm⟩ := List.mem_flatMap.mp h
  have := hst x hx
  cases x with
  | lit c => rw [Part.written, List.mem_singleton] at hm; exact this.1 hm.symm
  | closeBrace => revert hm; decide
  | openBrace => exact this
  | field f => exact this

theorem plain_no_close {st : List Part} (hst : ∀ x ∈ st, x.Plain) (hc : Part.closeBrace ∉ st) : (125 : Byte) ∉ formatText st := by
  intro h
  obtain ⟨x, hx, hm⟩ := List.mem_flatMap.mp h
  have := hst x hx
  cases x with
  | lit c => rw [Part.written, List.mem_singleton] at hm; exact this.2 hm.symm
  | closeBrace => exact hc hx
  | openBrace => exact this
  | field f => exact this

theorem written_pos (x : Part) : 1 ≤ x.written.length := by cases x <;> simp [Part.written]

theorem length_le_text (ps : List Part) : ps.length ≤ (formatText ps).length := by
  induction ps with
  | nil => simp
  | cons x ps ih =>
    have := written_pos x
    rw [formatText, List.flatMap_cons, List.length_append, List.length_cons]
    rw [formatText] at ih
    omega

theorem text_no_brace (n : Nat) : ∀ c ∈ text 10 false n, c ≠ 123 ∧ c ≠ 125 := by
  intro c hc
  rw [text, List.mem_map] at hc
  obtain ⟨d, hd, rfl⟩ := hc
  have hd := (numeral_canonical 10 n (by decide)).2.1 d hd
  have key : ∀ d < 10, digitChar false d ≠ 123 ∧ digitChar false d ≠ 125 := by decide
  exact key d hd

theorem spec_no_brace {s : Spec} (h : s.Ok) : ∀ c ∈ s.written, c ≠ 123 ∧ c ≠ 125 := by
  intro c hc
  rw [written_eq, List.mem_append, List.mem_append, List.mem_append] at hc
  rcases hc with hc | hc | hc | hc
  · have key : ∀ x ∈ [(45 : Byte), 43, 32, 48, 35], x ≠ 123 ∧ x ≠ 125 := by decide
    exact key c (h.flags c hc)
  · cases hw : s.width with
    | none => rw [hw] at hc; simp at hc
    | some n => rw [hw] at hc; exact text_no_brace n c hc
  · cases hp : s.precision with
    | none => rw [hp] at hc; simp at hc
    | some n =>
      rw [hp, Option.elim_some, List.mem_cons] at hc
      rcases hc with rfl | hc
      · decide
      · exact text_no_brace n c hc
  · cases hs : s.specifier with
    | none => rw [hs] at hc; simp at hc
    | some d =>
      rw [hs, Option.elim_some, List.mem_singleton] at hc
      subst hc
      have key : ∀ x ∈ specifiers, x ≠ 123 ∧ x ≠ 125 := by decide
      exact key c (h.specifier c hs)

theorem field_no_brace {f : Field} (h : f.Ok) : ∀ c ∈ f.written, c ≠ 123 ∧ c ≠ 125 := by
  intro c hc
  rw [Field.written, List.mem_append] at hc
  rcases hc with hc | hc
  · cases hw : f.index with
    | none => rw [hw] at hc; simp at hc
    | some n => rw [hw] at hc; exact text_no_brace n c hc
  · cases hp : f.spec with
    | none => rw [hp] at hc; simp at hc
    | some s =>
      rw [hp] at hc
      dsimp only at hc
      rw [List.mem_cons] at hc
      rcases hc with rfl | hc
      · decide
      · exact spec_no_brace (h.spec s hp) c hc

theorem ends_nothing (alloc : Alloc) : Ends alloc [] (fun p => .ok p) :=
  ⟨fun _ _ _ p h => ⟨p, rfl, by rw [List.append_nil]; exact h⟩, fun _ _ p h => .inl ⟨p, rfl, by rw [List.append_nil]; exact h⟩⟩

theorem rd_mid (pre : List Byte) (c : Byte) (post : List Byte) {n : Nat} (h : n = pre.length) : rd (pre ++ c :: post) n = .ok c := by
  subst h
  rw [rd, List.getElem?_append_right (by omega)]
  simp

/-- The stretch before a brace that is opened, or before the end. -/
theorem stretch_prints (alloc : Alloc) {st : List Part} (hst : ∀ x ∈ st, x.Plain) (pre post : List Byte) {mem : List Byte} {last fuel : Nat}
    (hm : mem = pre ++ formatText st ++ post) (hl : last = pre.length + (formatText st).length) (hf : last < fuel) :
    Prints alloc (plainOut st) (printEscaped alloc mem last fuel pre.length) := by
  have := printEscaped_prints alloc st hst pre [] post (by simp) fuel (by have := length_le_text st; omega)
  rw [List.nil_append, List.nil_append] at this
  rw [hm, hl]
  exact this

/-- The argument that is the next one behind the parts. -/
def nextArg : Nat → List Part → Nat
  | i, [] => i
  | i, .field f :: ps => nextArg (if f.index = none then i + 1 else i) ps
  | i, _ :: ps => nextArg i ps

theorem nextArg_plain {i : Nat} {st rest : List Part} (hst : ∀ x ∈ st, x.Plain) : nextArg i (st ++ rest) = nextArg i rest := by
  induction st with
  | nil => rfl
  | cons x st ih =>
    have hx := hst x (by simp)
    have ih := ih (fun y hy => hst y (by simp [hy]))
    cases x with
    | lit c => exact ih
    | closeBrace => exact ih
    | openBrace => exact absurd hx (by simp [Part.Plain])
    | field f => exact absurd hx (by simp [Part.Plain])

theorem impl_runs (alloc : Alloc) (R : List Byte → (Printer → C Printer) → Prop)
    (hR : ∀ t u op k, Prints alloc t op → R u k → R (t ++ u) (fun p => do
      let r ← op p
      if !r.2 then .ok r.1 else k r.1))
    (args : List Arg) (hn : args.length ≤ 16) (post : List Byte) (k : Nat) (hk : k ≤ post.length) (x : List Part) (e : Nat)
    (hfinal : ∀ (pre : List Byte) (st : List Part) (fuel : Nat), (∀ y ∈ st, y.Plain) → BracesFine (decide (Part.closeBrace ∈ st)) x → e ≤ 16 →
      R (plainOut st) (implLoop alloc (pre ++ formatText st ++ post) (pre.length + (formatText st).length + k) defaultFormat args (fuel + 1) pre.length
        (BitVec.ofNat 32 e) (typeFlags args >>> (e * 4)))) (n : Nat) : ∀ (ps : List Part), ps.length ≤ n → ∀ (pre : List Byte) (i : Nat)
    (out : List Byte) (fuel : Nat), (∀ x ∈ ps, x.Ok) → Renders args i ps out → AllFine args i ps → BracesFine false (ps ++ x) → i ≤ 16 → ps.length < fuel →
    nextArg i ps = e →
    R out (implLoop alloc (pre ++ formatText ps ++ post) (pre.length + (formatText ps).length + k) defaultFormat args fuel pre.length
      (BitVec.ofNat 32 i) (typeFlags args >>> (i * 4))) := by
  induction n with
  | zero =>
    intro ps hps pre i out fuel hok hr ha hb hi hf he
    obtain rfl : ps = [] := List.eq_nil_of_length_eq_zero (by omega)
    obtain rfl : out = [] := hr
    obtain rfl : i = e := he
    obtain ⟨fuel, rfl⟩ : ∃ k, fuel = k + 1 := ⟨fuel - 1, by simp at hf; omega⟩
    exact hfinal pre [] fuel (by simp) (by simpa using hb) hi
  | succ n ih =>
    intro ps hps pre i out fuel hok hr ha hb hi hf he
    obtain ⟨fuel, rfl⟩ : ∃ k, fuel = k + 1 := ⟨fuel - 1, by omega⟩
    obtain ⟨st, rest, rfl, hst, hrest⟩ := split_plain ps hok
    obtain ⟨o, hr', rfl⟩ := renders_plain hst hr
    have ha' := fine_plain hst ha
    have hb' := braces_plain hst (by rw [← List.append_assoc]; exact hb)
    have hop := plain_no_open hst
    have htext : ∀ r, formatText (st ++ r) = formatText st ++ formatText r := fun r => by rw [formatText, List.flatMap_append]; rfl
    rw [nextArg_plain hst] at he
    rw [List.length_append] at hps hf
    rcases hrest with rfl | ⟨r, rfl⟩ | ⟨f, r, rfl⟩
    · -- the end
      obtain rfl : o = [] := hr'
      obtain rfl : i = e := he
      rw [List.append_nil, List.append_nil]
      exact hfinal pre st fuel hst (by simpa using hb') hi
    · -- an escaped brace
      obtain ⟨o', hr'', rfl⟩ := hr'
      have hb'' : BracesFine false (r ++ x) := hb'
      have ha'' : AllFine args i r := ha'
      have hok' : ∀ x ∈ r, x.Ok := fun x hx => hok x (by simp [hx])
      rw [List.length_cons] at hps hf
      have ih := ih r (by omega) (pre ++ formatText st ++ [123, 123]) i o' fuel hok' hr'' ha'' hb'' hi (by omega) he
      have hft : formatText (.openBrace :: r) = 123 :: 123 :: formatText r := rfl
      have hmem : pre ++ formatText (st ++ .openBrace :: r) ++ post = pre ++ formatText st ++ 123 :: (123 :: formatText r ++ post) := by
        rw [htext, hft]; simp
      have hmem' : pre ++ formatText (st ++ .openBrace :: r) ++ post = pre ++ formatText st ++ [123, 123] ++ formatText r ++ post := by
        rw [htext, hft]; simp
      have hlast : pre.length + (formatText (st ++ .openBrace :: r)).length + k = (pre ++ formatText st ++ [123, 123]).length + (formatText r).length + k := by
        rw [htext, hft]; simp; omega
      have hl2 : pre.length + (formatText st).length + 1 < pre.length + (formatText (st ++ .openBrace :: r)).length + k := by
        rw [htext, hft]; simp; omega
      rw [← hmem', ← hlast] at ih
      have e : implLoop alloc (pre ++ formatText (st ++ .openBrace :: r) ++ post) (pre.length + (formatText (st ++ .openBrace :: r)).length + k) defaultFormat
          args (fuel + 1) pre.length (BitVec.ofNat 32 i) (typeFlags args >>> (i * 4)) = fun p => (do
            let q ← printEscaped alloc (pre ++ formatText (st ++ .openBrace :: r) ++ post) (pre.length + (formatText st).length)
              (pre.length + (formatText (st ++ .openBrace :: r)).length + k + 1) pre.length p
            if !q.2 then .ok q.1 else (fun p => (do
              let q ← printText alloc p [123]
              if !q.2 then .ok q.1 else
                implLoop alloc (pre ++ formatText (st ++ .openBrace :: r) ++ post) (pre.length + (formatText (st ++ .openBrace :: r)).length + k) defaultFormat args
                  fuel (pre ++ formatText st ++ [123, 123]).length (BitVec.ofNat 32 i) (typeFlags args >>> (i * 4)) q.1)) q.1) := by
        funext p
        rw [implLoop]
        have hfind : find (pre ++ formatText (st ++ .openBrace :: r) ++ post) pre.length (pre.length + (formatText (st ++ .openBrace :: r)).length + k) 123
            = .ok (some (pre.length + (formatText st).length)) := by
          conv => lhs; rw [hmem]
          exact find_some hop (by omega) (by rw [← hmem]; simp; omega)
        rw [hfind, ok_bind]
        dsimp only
        have hrd : rd (pre ++ formatText (st ++ .openBrace :: r) ++ post) (pre.length + (formatText st).length + 1) = .ok 123 := by
          rw [hmem, show pre ++ formatText st ++ 123 :: (123 :: formatText r ++ post) = (pre ++ formatText st ++ [123]) ++ 123 :: (formatText r ++ post) by simp]
          exact rd_mid _ _ _ (by simp; omega)
        congr 1
        funext q
        by_cases hq : q.2 = true
        · simp only [hq, Bool.not_true, Bool.false_eq_true, if_false]
          have hlen : (pre ++ formatText st ++ [(123 : Byte), 123]).length = pre.length + (formatText st).length + 2 := by simp; omega
          rw [hrd, ok_bind, if_pos rfl, hlen]
        · simp only [hq, Bool.not_false, if_true]
      rw [e]
      have h1 := stretch_prints alloc hst pre (123 :: (123 :: formatText r ++ post)) hmem rfl
        (fuel := pre.length + (formatText (st ++ .openBrace :: r)).length + k + 1) (by omega)
      have := hR _ _ _ _ h1 (hR _ _ _ _ (printText_appends alloc [123]).prints ih)
      exact this
    · -- a placeholder
      obtain ⟨a, t, o', hget, harg, hr'', rfl⟩ := hr'
      obtain ⟨hseen, hb''⟩ := hb'
      obtain ⟨hfine, ha''⟩ := ha'
      have hfok : f.Ok := hok (.field f) (by simp)
      have hok' : ∀ x ∈ r, x.Ok := fun x hx => hok x (by simp [hx])
      have hcl : (125 : Byte) ∉ formatText st := plain_no_close hst (by simpa using hseen)
      have hidx : f.index.getD i < args.length := by
        by_contra hc
        rw [List.getElem?_eq_none (by omega)] at hget
        cases hget
      have hav : args[f.index.getD i] = a := by
        rw [List.getElem?_eq_getElem hidx] at hget
        exact Option.some.inj hget
      rw [List.length_cons] at hps hf
      have hi' : (if f.index = none then i + 1 else i) ≤ 16 := by
        split
        · rename_i hnone; rw [hnone] at hidx; simp at hidx; omega
        · exact hi
      have ih := ih r (by omega) (pre ++ formatText st ++ (123 :: f.written ++ [125])) _ o' fuel hok' hr'' ha'' hb'' hi' (by omega) he
      have hft : formatText (.field f :: r) = 123 :: (f.written ++ 125 :: formatText r) := by
        rw [formatText, List.flatMap_cons]; simp [Part.written, formatText]
      have hmem : pre ++ formatText (st ++ .field f :: r) ++ post = pre ++ formatText st ++ 123 :: (f.written ++ 125 :: (formatText r ++ post)) := by
        rw [htext, hft]; simp
      have hmem' : pre ++ formatText (st ++ .field f :: r) ++ post = pre ++ formatText st ++ (123 :: f.written ++ [125]) ++ formatText r ++ post := by
        rw [htext, hft]; simp
      have hmem'' : pre ++ formatText (st ++ .field f :: r) ++ post = pre ++ (formatText st ++ 123 :: f.written) ++ 125 :: (formatText r ++ post) := by
        rw [htext, hft]; simp
      have hlast : pre.length + (formatText (st ++ .field f :: r)).length + k
          = (pre ++ formatText st ++ (123 :: f.written ++ [125])).length + (formatText r).length + k := by
        rw [htext, hft]; simp; omega
      have hl2 : pre.length + (formatText st).length + f.written.length + 1 < pre.length + (formatText (st ++ .field f :: r)).length + k := by
        rw [htext, hft]; simp; omega
      rw [← hmem', ← hlast] at ih
      obtain ⟨fm, hfield, hmeans⟩ := parseField_spec hfok (BitVec.ofNat 32 i)
      have hindex : ((f.index.map (BitVec.ofNat 32)).getD (BitVec.ofNat 32 i)).toNat = f.index.getD i := by
        cases hx : f.index with
        | none => simp; omega
        | some k => have := hfok.index k hx; simp; omega
      have hprint := printArg_appends alloc hmeans (hfine a hget) harg
      have e : implLoop alloc (pre ++ formatText (st ++ .field f :: r) ++ post) (pre.length + (formatText (st ++ .field f :: r)).length + k) defaultFormat
          args (fuel + 1) pre.length (BitVec.ofNat 32 i) (typeFlags args >>> (i * 4)) = fun p => (do
            let q ← printEscaped alloc (pre ++ formatText (st ++ .field f :: r) ++ post) (pre.length + (formatText st).length)
              (pre.length + (formatText (st ++ .field f :: r)).length + k + 1) pre.length p
            if !q.2 then .ok q.1 else (fun p => (do
              let q ← printArg alloc p a.type a fm
              if !q.2 then .ok q.1 else
                implLoop alloc (pre ++ formatText (st ++ .field f :: r) ++ post) (pre.length + (formatText (st ++ .field f :: r)).length + k) defaultFormat args
                  fuel (pre ++ formatText st ++ (123 :: f.written ++ [125])).length (BitVec.ofNat 32 (if f.index = none then i + 1 else i))
                  (typeFlags args >>> ((if f.index = none then i + 1 else i) * 4)) q.1)) q.1) := by
        funext p
        rw [implLoop]
        have hfind : find (pre ++ formatText (st ++ .field f :: r) ++ post) pre.length (pre.length + (formatText (st ++ .field f :: r)).length + k) 123
            = .ok (some (pre.length + (formatText st).length)) := by
          conv => lhs; rw [hmem]
          exact find_some hop (by omega) (by rw [← hmem]; simp; omega)
        have hclose : find (pre ++ formatText (st ++ .field f :: r) ++ post) pre.length (pre.length + (formatText (st ++ .field f :: r)).length + k) 125
            = .ok (some (pre.length + (formatText st ++ 123 :: f.written).length)) := by
          conv => lhs; rw [hmem'']
          refine find_some ?_ (by simp; omega) (by rw [← hmem'']; simp; omega)
          intro hx
          rcases List.mem_append.mp hx with hx | hx
          · exact hcl hx
          · rcases List.mem_cons.mp hx with hx | hx
            · revert hx; decide
            · exact (field_no_brace hfok _ hx).2 rfl
        have hrd : ∃ c, rd (pre ++ formatText (st ++ .field f :: r) ++ post) (pre.length + (formatText st).length + 1) = .ok c ∧ c ≠ 123 := by
          have hsh : ∀ (x : Byte) (xs : List Byte), f.written ++ 125 :: (formatText r ++ post) = x :: xs →
              rd (pre ++ formatText (st ++ .field f :: r) ++ post) (pre.length + (formatText st).length + 1) = .ok x := by
            intro x xs hx
            rw [hmem, hx, show pre ++ formatText st ++ 123 :: (x :: xs) = (pre ++ formatText st ++ [123]) ++ x :: xs by simp]
            exact rd_mid _ _ _ (by simp; omega)
          cases hw : f.written with
          | nil => exact ⟨125, hsh _ _ (by rw [hw]; rfl), by decide⟩
          | cons x xs => exact ⟨x, hsh _ _ (by rw [hw]; rfl), (field_no_brace hfok x (by rw [hw]; simp)).1⟩
        obtain ⟨c, hrd, hc⟩ := hrd
        have hslice : ((pre ++ formatText (st ++ .field f :: r) ++ post).drop (pre.length + (formatText st).length + 1)).take
            (pre.length + (formatText st ++ 123 :: f.written).length - (pre.length + (formatText st).length + 1)) = f.written := by
          have l1 : pre.length + (formatText st).length + 1 = (pre ++ formatText st ++ [(123 : Byte)]).length := by simp; omega
          have l2 : pre.length + (formatText st ++ (123 : Byte) :: f.written).length - (pre ++ formatText st ++ [(123 : Byte)]).length = f.written.length := by
            simp; omega
          rw [hmem, show pre ++ formatText st ++ 123 :: (f.written ++ 125 :: (formatText r ++ post))
            = (pre ++ formatText st ++ [123]) ++ (f.written ++ 125 :: (formatText r ++ post)) by simp, l1, List.drop_left, l2, List.take_left]
        have htype : (if f.index.isSome = true then (typeFlags args >>> (f.index.getD i * 4)) &&& 15 else (typeFlags args >>> (i * 4)) &&& 15) = a.type := by
          rw [← hav, ← typeFlags_shift args _ hidx hn]
          cases f.index <;> rfl
        have hrange := type_range a
        rw [hfind, ok_bind]
        dsimp only
        congr 1
        funext q
        by_cases hq : q.2 = true
        · simp only [hq, Bool.not_true, Bool.false_eq_true, if_false]
          rw [hrd, ok_bind, if_neg hc, hclose, ok_bind]
          dsimp only
          rw [if_neg (by simp; omega), hslice, hfield, ok_bind]
          dsimp only
          rw [hindex, if_neg (by omega), htype, if_neg (by
            rintro (hz | hz)
            · rw [hz] at hrange; simp at hrange
            · omega), rd, List.getElem?_eq_getElem hidx, hav]
          dsimp only
          have l3 : pre.length + (formatText st ++ (123 : Byte) :: f.written).length + 1
              = (pre ++ formatText st ++ ((123 : Byte) :: f.written ++ [125])).length := by simp; omega
          rw [ok_bind, l3]
          congr 1
          funext q'
          by_cases hq' : q'.2 = true
          · simp only [hq', Bool.not_true, Bool.false_eq_true, if_false]
            cases hx : f.index with
            | none =>
              simp only [Option.isSome_none, Bool.false_eq_true, if_false, if_true]
              rw [← BitVec.shiftRight_add, show i * 4 + 4 = (i + 1) * 4 by omega, BitVec.ofNat_add]
              rfl
            | some k => simp only [Option.isSome_some, if_true, reduceCtorEq, if_false]
          · simp only [hq', Bool.not_false, if_true]
        · simp only [hq, Bool.not_false, if_true]
      rw [e]
      have h1 := stretch_prints alloc hst pre (123 :: (f.written ++ 125 :: (formatText r ++ post))) hmem rfl
        (fuel := pre.length + (formatText (st ++ .field f :: r)).length + k + 1) (by omega)
      have := hR _ _ _ _ h1 (hR _ _ _ _ hprint.prints ih)
      exact this

theorem end_ends (alloc : Alloc) (args : List Arg) (i : Nat) (pre post : List Byte) {st : List Part} (hst : ∀ x ∈ st, x.Plain) (fuel : Nat) :
    Ends alloc (plainOut st) (implLoop alloc (pre ++ formatText st ++ post) (pre.length + (formatText st).length) defaultFormat args (fuel + 1)
      pre.length (BitVec.ofNat 32 i) (typeFlags args >>> (i * 4))) := by
  have e : implLoop alloc (pre ++ formatText st ++ post) (pre.length + (formatText st).length) defaultFormat args (fuel + 1) pre.length
      (BitVec.ofNat 32 i) (typeFlags args >>> (i * 4)) = fun p => if st = [] then .ok p else (do
        let r ← printEscaped alloc (pre ++ formatText st ++ post) (pre.length + (formatText st).length) (pre.length + (formatText st).length + 1)
          pre.length p
        .ok r.1) := by
    funext p
    rw [implLoop, find_none (plain_no_open hst), ok_bind]
    dsimp only
    by_cases h0 : st = []
    · subst h0; rw [if_neg (by simp [formatText]), if_pos rfl]
    · have := length_le_text st
      have := List.length_pos_of_ne_nil h0
      rw [if_pos (by omega), if_neg h0]
  rw [e]
  by_cases h0 : st = []
  · subst h0; simp only [if_true]; exact ends_nothing alloc
  · simp only [h0, if_false]
    exact (stretch_prints alloc hst pre post rfl rfl (by omega)).last

/-- `printImpl` prints what the format string says. -/
theorem printImpl_ends (alloc : Alloc) {args : List Arg} (hn : args.length ≤ 16) {ps : List Part} {out : List Byte} (hok : ∀ x ∈ ps, x.Ok)
    (hr : Renders args 0 ps out) (ha : AllFine args 0 ps) (hb : BracesFine false ps) (post : List Byte) :
    Ends alloc out (printImpl alloc (formatText ps ++ post) (formatText ps).length defaultFormat args) := by
  have := impl_runs alloc (Ends alloc) (fun _ _ _ _ h1 h2 => h1.ends h2) args hn post 0 (by omega) [] (nextArg 0 ps)
    (fun pre st fuel hst _ _ => end_ends alloc args _ pre post hst fuel) ps.length ps (Nat.le_refl _) [] 0 out ((formatText ps).length + 1) hok hr ha
    (by rw [List.append_nil]; exact hb) (by decide) (by have := length_le_text ps; omega) rfl
  simp only [Nat.add_zero, List.nil_append, List.length_nil, Nat.zero_add, Nat.zero_mul, BitVec.ushiftRight_zero] at this
  exact this

end Tm.Fmt
