import Verif.Fmt.Impl
/-! # Format strings that are not well formed -/
namespace Tm.Fmt
open Tm.Num Tm.Conv Tm.Dbl

/-- The run ends with an error. -/
structure Fails (alloc : Alloc) (run : Printer → C Printer) : Prop where
  fixed : ∀ buf len out p, Fixed buf len out p → ∃ p', run p = .ok p' ∧ p'.ec = .einval ∧ SameOutside buf p'.data 0 len
  growing : AllocOk alloc → ∀ out p, Growing out p → ∃ p', run p = .ok p' ∧ (p'.ec = .einval ∨ p'.ec = .enomem ∧ Refuses alloc)

/-- The operation ends with an error. -/
structure Rejects (alloc : Alloc) (op : Printer → C (Printer × Bool)) : Prop where
  fixed : ∀ buf len out p, Fixed buf len out p → ∃ p', op p = .ok (p', false) ∧ p'.ec = .einval ∧ SameOutside buf p'.data 0 len
  growing : AllocOk alloc → ∀ out p, Growing out p → ∃ p', op p = .ok (p', false) ∧ (p'.ec = .einval ∨ p'.ec = .enomem ∧ Refuses alloc)

theorem Prints.fails {alloc : Alloc} {t : List Byte} {op : Printer → C (Printer × Bool)} {k : Printer → C Printer} (h : Prints alloc t op)
    (hk : Fails alloc k) : Fails alloc (fun p => do
      let r ← op p
      if !r.2 then .ok r.1 else k r.1) := by
  constructor
  · intro buf len out p hp
    obtain ⟨p1, e1, e2⟩ := h.fixed buf len out p hp
    obtain ⟨p2, e3, e4⟩ := hk.fixed buf len _ p1 e2
    refine ⟨p2, ?_, e4⟩
    rw [e1, ok_bind]
    simp only [Bool.not_true, Bool.false_eq_true, if_false]
    exact e3
  · intro ha out p hp
    rcases h.growing ha out p hp with ⟨p1, e1, e2⟩ | ⟨p1, w, e1, e2, e3, e4, e5⟩
    · obtain ⟨p2, e3, e4⟩ := hk.growing ha _ p1 e2
      refine ⟨p2, ?_, e4⟩
      rw [e1, ok_bind]
      simp only [Bool.not_true, Bool.false_eq_true, if_false]
      exact e3
    · refine ⟨p1, ?_, .inr ⟨e2, e5⟩⟩
      rw [e1, ok_bind]
      simp only [Bool.not_false, if_true]

theorem Prints.rejects {alloc : Alloc} {t : List Byte} {op k : Printer → C (Printer × Bool)} (h : Prints alloc t op)
    (hk : Rejects alloc k) : Rejects alloc (fun p => do
      let r ← op p
      if !r.2 then .ok (r.1, false) else k r.1) := by
  constructor
  · intro buf len out p hp
    obtain ⟨p1, e1, e2⟩ := h.fixed buf len out p hp
    obtain ⟨p2, e3, e4⟩ := hk.fixed buf len _ p1 e2
    refine ⟨p2, ?_, e4⟩
    rw [e1, ok_bind]
    simp only [Bool.not_true, Bool.false_eq_true, if_false]
    exact e3
  · intro ha out p hp
    rcases h.growing ha out p hp with ⟨p1, e1, e2⟩ | ⟨p1, w, e1, e2, e3, e4, e5⟩
    · obtain ⟨p2, e3, e4⟩ := hk.growing ha _ p1 e2
      refine ⟨p2, ?_, e4⟩
      rw [e1, ok_bind]
      simp only [Bool.not_true, Bool.false_eq_true, if_false]
      exact e3
    · refine ⟨p1, ?_, .inr ⟨e2, e5⟩⟩
      rw [e1, ok_bind]
      simp only [Bool.not_false, if_true]

theorem Rejects.fails {alloc : Alloc} {op : Printer → C (Printer × Bool)} (h : Rejects alloc op) (k : Printer → C Printer) :
    Fails alloc (fun p => do
      let r ← op p
      if !r.2 then .ok r.1 else k r.1) := by
  constructor
  · intro buf len out p hp
    obtain ⟨p1, e1, e2⟩ := h.fixed buf len out p hp
    refine ⟨p1, ?_, e2⟩
    rw [e1, ok_bind]
    simp only [Bool.not_false, if_true]
  · intro ha out p hp
    obtain ⟨p1, e1, e2⟩ := h.growing ha out p hp
    refine ⟨p1, ?_, e2⟩
    rw [e1, ok_bind]
    simp only [Bool.not_false, if_true]

theorem Rejects.last {alloc : Alloc} {op : Printer → C (Printer × Bool)} (h : Rejects alloc op) :
    Fails alloc (fun p => do
      let r ← op p
      .ok r.1) := by
  constructor
  · intro buf len out p hp
    obtain ⟨p1, e1, e2⟩ := h.fixed buf len out p hp
    exact ⟨p1, by rw [e1, ok_bind], e2⟩
  · intro ha out p hp
    obtain ⟨p1, e1, e2⟩ := h.growing ha out p hp
    exact ⟨p1, by rw [e1, ok_bind], e2⟩

theorem rejects_einval (alloc : Alloc) : Rejects alloc (fun p => .ok ({ p with ec := .einval }, false)) :=
  ⟨fun _ _ _ _ h => ⟨_, rfl, rfl, h.same⟩, fun _ _ _ _ => ⟨_, rfl, .inl rfl⟩⟩

theorem fails_einval (alloc : Alloc) : Fails alloc (fun p => .ok { p with ec := .einval }) :=
  ⟨fun _ _ _ _ h => ⟨_, rfl, rfl, h.same⟩, fun _ _ _ _ => ⟨_, rfl, .inl rfl⟩⟩

/-! ## a closing brace that stands alone -/

theorem printEscaped_rejects (alloc : Alloc) (st : List Part) (hst : ∀ x ∈ st, x.Plain) (pre ls more : List Byte) (hls : (125 : Byte) ∉ ls) (j : Nat)
    (hj : j ≤ more.length) (hmore : j = 0 ∨ more.head? ≠ some 125) (fuel : Nat) (hf : st.length < fuel) :
    Rejects alloc (printEscaped alloc (pre ++ (ls ++ formatText st) ++ 125 :: more) (pre.length + (ls ++ formatText st).length + 1 + j) fuel pre.length) := by
  induction st generalizing pre ls fuel with
  | nil =>
    obtain ⟨fuel, rfl⟩ : ∃ k, fuel = k + 1 := ⟨fuel - 1, by simp at hf; omega⟩
    simp only [formatText, List.flatMap_nil, List.append_nil]
    have e : printEscaped alloc (pre ++ ls ++ 125 :: more) (pre.length + ls.length + 1 + j) (fuel + 1) pre.length
        = fun p => (do
          let r ← printText alloc p (ls ++ [125])
          if !r.2 then .ok (r.1, false) else .ok ({ r.1 with ec := .einval }, false)) := by
      funext p
      rw [printEscaped, find_some hls (by omega) (by simp; omega), ok_bind]
      dsimp only
      have e1 : ((pre ++ ls ++ 125 :: more).drop pre.length).take (pre.length + ls.length + 1 - pre.length) = ls ++ [125] := by
        rw [List.append_assoc, List.drop_left, show pre.length + ls.length + 1 - pre.length = ls.length + 1 by omega, List.take_append]
        simp
      rw [e1]
      congr 1
      funext r
      by_cases hr : r.2 = true
      · simp only [hr, Bool.not_true, Bool.false_eq_true, if_false]
        by_cases h0 : j = 0
        · rw [if_pos (by omega)]
        · rw [if_neg (by omega)]
          cases hm : more with
          | nil => rw [hm] at hj; simp at hj; omega
          | cons c cs =>
            have hc : c ≠ 125 := by
              rcases hmore with h | h
              · exact absurd h h0
              · rw [hm] at h; intro e; exact h (by rw [e]; rfl)
            rw [show pre ++ ls ++ 125 :: (c :: cs) = (pre ++ ls ++ [125]) ++ c :: cs by simp, rd_mid _ _ _ (by simp; omega), ok_bind, if_pos hc]
      · simp only [hr, Bool.not_false, if_true]
    rw [e]
    exact (printText_appends alloc (ls ++ [125])).prints.rejects (rejects_einval alloc)
  | cons x st ih =>
    have hx := hst x (by simp)
    have hst' : ∀ y ∈ st, y.Plain := fun y hy => hst y (by simp [hy])
    cases x with
    | lit c =>
      have hm : (125 : Byte) ∉ ls ++ [c] := by
        intro hmem
        rcases List.mem_append.mp hmem with h | h
        · exact hls h
        · rw [List.mem_singleton] at h; exact hx.2 h.symm
      have := ih hst' pre (ls ++ [c]) hm fuel (by simp at hf; omega)
      simpa only [formatText, List.flatMap_cons, Part.written, plainOut, List.append_assoc, List.singleton_append, List.cons_append, List.nil_append] using this
    | openBrace => exact absurd hx (by simp [Part.Plain])
    | field f => exact absurd hx (by simp [Part.Plain])
    | closeBrace =>
      obtain ⟨fuel, rfl⟩ : ∃ k, fuel = k + 1 := ⟨fuel - 1, by simp at hf; omega⟩
      have ih := ih hst' (pre ++ ls ++ [125, 125]) [] (by simp) fuel (by simp at hf; omega)
      have ht : formatText (.closeBrace :: st) = 125 :: 125 :: formatText st := rfl
      rw [ht]
      have hmem : pre ++ (ls ++ 125 :: 125 :: formatText st) ++ 125 :: more = pre ++ ls ++ 125 :: (125 :: formatText st ++ 125 :: more) := by simp
      have hmem' : pre ++ (ls ++ 125 :: 125 :: formatText st) ++ 125 :: more = pre ++ ls ++ [125, 125] ++ ([] ++ formatText st) ++ 125 :: more := by simp
      have hlast : pre.length + (ls ++ 125 :: 125 :: formatText st).length + 1 + j
          = (pre ++ ls ++ [125, 125]).length + ([] ++ formatText st).length + 1 + j := by
        simp; omega
      have e : printEscaped alloc (pre ++ (ls ++ 125 :: 125 :: formatText st) ++ 125 :: more)
          (pre.length + (ls ++ 125 :: 125 :: formatText st).length + 1 + j) (fuel + 1) pre.length = fun p => (do
            let r ← printText alloc p (ls ++ [125])
            if !r.2 then .ok (r.1, false) else
              printEscaped alloc (pre ++ ls ++ [125, 125] ++ ([] ++ formatText st) ++ 125 :: more)
                ((pre ++ ls ++ [125, 125]).length + ([] ++ formatText st).length + 1 + j) fuel (pre ++ ls ++ [125, 125]).length r.1) := by
        funext p
        rw [printEscaped]
        conv => lhs; rw [hmem]
        rw [find_some hls (by simp; omega) (by simp; omega), ok_bind]
        dsimp only
        have e1 : ((pre ++ ls ++ 125 :: (125 :: formatText st ++ 125 :: more)).drop pre.length).take (pre.length + ls.length + 1 - pre.length) = ls ++ [125] := by
          rw [List.append_assoc, List.drop_left, show pre.length + ls.length + 1 - pre.length = ls.length + 1 by omega, List.take_append]
          simp
        rw [e1]
        congr 1
        funext r
        by_cases hr : r.2 = true
        · simp only [hr, Bool.not_true, Bool.false_eq_true, if_false]
          rw [if_neg (by simp; omega)]
          have e2 : rd (pre ++ ls ++ 125 :: (125 :: formatText st ++ 125 :: more)) (pre.length + ls.length + 1) = .ok 125 := by
            rw [rd, List.getElem?_append_right (by simp)]
            simp
          rw [e2, ok_bind, if_neg (by simp), ← hmem, hmem', hlast]
          congr 1
          simp; omega
        · rw [if_pos (by simp [hr]), if_pos (by simp [hr])]
      rw [e]
      exact (printText_appends alloc (ls ++ [125])).prints.rejects ih

theorem stray_fails (alloc : Alloc) (args : List Arg) (i : Nat) (pre more rest : List Byte) {st : List Part} (hst : ∀ x ∈ st, x.Plain)
    (hmore : more.head? ≠ some 125) (fuel : Nat) :
    Fails alloc (implLoop alloc (pre ++ formatText st ++ (125 :: more ++ rest)) (pre.length + (formatText st).length + (125 :: more).length) defaultFormat
      args (fuel + 1) pre.length (BitVec.ofNat 32 i) (typeFlags args >>> (i * 4))) := by
  have hlen := length_le_text st
  by_cases hopen : (123 : Byte) ∈ more
  · obtain ⟨m1, m2, hm, hm1⟩ := List.eq_append_cons_of_mem hopen
    have hno : (123 : Byte) ∉ formatText st ++ 125 :: m1 := by
      intro hx
      rcases List.mem_append.mp hx with hx | hx
      · exact plain_no_open hst hx
      · rcases List.mem_cons.mp hx with hx | hx
        · revert hx; decide
        · exact hm1 hx
    have hmem : pre ++ formatText st ++ (125 :: more ++ rest) = pre ++ (formatText st ++ 125 :: m1) ++ 123 :: (m2 ++ rest) := by rw [hm]; simp
    have hmem' : pre ++ formatText st ++ (125 :: more ++ rest) = pre ++ ([] ++ formatText st) ++ 125 :: (m1 ++ 123 :: (m2 ++ rest)) := by rw [hm]; simp
    have hfind : find (pre ++ formatText st ++ (125 :: more ++ rest)) pre.length (pre.length + (formatText st).length + (125 :: more).length) 123
        = .ok (some (pre.length + (formatText st ++ 125 :: m1).length)) := by
      rw [hmem]
      refine find_some hno ?_ ?_
      · rw [hm]; simp; omega
      · rw [← hmem]; simp; omega
    have hrej := printEscaped_rejects alloc st hst pre [] (m1 ++ 123 :: (m2 ++ rest)) (by simp) m1.length (by simp) (by
      cases m1 with
      | nil => exact .inl rfl
      | cons c cs => right; rw [hm] at hmore; exact hmore) (pre.length + (formatText st).length + (125 :: more).length + 1) (by omega)
    have hq : pre.length + ([] ++ formatText st).length + 1 + m1.length = pre.length + (formatText st ++ 125 :: m1).length := by simp; omega
    rw [← hmem', hq] at hrej
    have hfails := fun k => hrej.fails k
    constructor
    · intro buf len out p hp
      obtain ⟨p', e1, e2⟩ := hrej.fixed buf len out p hp
      refine ⟨p', ?_, e2⟩
      rw [implLoop, hfind, ok_bind]
      dsimp only
      rw [e1, ok_bind, if_pos (by simp)]
    · intro ha out p hp
      obtain ⟨p', e1, e2⟩ := hrej.growing ha out p hp
      refine ⟨p', ?_, e2⟩
      rw [implLoop, hfind, ok_bind]
      dsimp only
      rw [e1, ok_bind, if_pos (by simp)]
  · have hno : (123 : Byte) ∉ formatText st ++ 125 :: more := by
      intro hx
      rcases List.mem_append.mp hx with hx | hx
      · exact plain_no_open hst hx
      · rcases List.mem_cons.mp hx with hx | hx
        · revert hx; decide
        · exact hopen hx
    have hmem : pre ++ formatText st ++ (125 :: more ++ rest) = pre ++ (formatText st ++ 125 :: more) ++ rest := by simp
    have hmem' : pre ++ formatText st ++ (125 :: more ++ rest) = pre ++ ([] ++ formatText st) ++ 125 :: (more ++ rest) := by simp
    have hl : pre.length + (formatText st).length + (125 :: more).length = pre.length + (formatText st ++ 125 :: more).length := by simp; omega
    have hrej := printEscaped_rejects alloc st hst pre [] (more ++ rest) (by simp) more.length (by simp) (by
      cases more with
      | nil => exact .inl rfl
      | cons c cs => right; exact hmore) (pre.length + (formatText st).length + (125 :: more).length + 1) (by omega)
    have hq : pre.length + ([] ++ formatText st).length + 1 + more.length = pre.length + (formatText st).length + (125 :: more).length := by simp; omega
    rw [← hmem', hq] at hrej
    have e : implLoop alloc (pre ++ formatText st ++ (125 :: more ++ rest)) (pre.length + (formatText st).length + (125 :: more).length) defaultFormat
      args (fuel + 1) pre.length (BitVec.ofNat 32 i) (typeFlags args >>> (i * 4)) = fun p => (do
        let r ← printEscaped alloc (pre ++ formatText st ++ (125 :: more ++ rest)) (pre.length + (formatText st).length + (125 :: more).length)
          (pre.length + (formatText st).length + (125 :: more).length + 1) pre.length p
        .ok r.1) := by
      funext p
      have hfind : find (pre ++ formatText st ++ (125 :: more ++ rest)) pre.length (pre.length + (formatText st).length + (125 :: more).length) 123
          = .ok none := by
        rw [hmem, hl]; exact find_none hno
      rw [implLoop, hfind, ok_bind]
      dsimp only
      rw [if_pos (by simp; omega)]
    rw [e]
    exact hrej.last

/-! ## an opening brace without a closing one, or with an index that no argument has -/

/-- The common part: what follows the text before the brace. -/
theorem open_fails (alloc : Alloc) (args : List Arg) (i : Nat) (pre tl rest : List Byte) {st : List Part} (hst : ∀ x ∈ st, x.Plain) (fuel : Nat)
    {c : Byte} (hc : c ≠ 123) (hhead : (tl ++ rest).head? = some c)
    (hk : (find (pre ++ formatText st ++ (123 :: tl ++ rest)) pre.length (pre.length + (formatText st).length + (123 :: tl).length) 125 = .ok none) ∨
      ∃ next f b idx, find (pre ++ formatText st ++ (123 :: tl ++ rest)) pre.length (pre.length + (formatText st).length + (123 :: tl).length) 125
          = .ok (some next) ∧ pre.length + (formatText st).length + 1 ≤ next ∧
        parseField (((pre ++ formatText st ++ (123 :: tl ++ rest)).drop (pre.length + (formatText st).length + 1)).take
          (next - (pre.length + (formatText st).length + 1))) { defaultFormat with flags := defaultFormat.flags &&& 0x3FFFF } (BitVec.ofNat 32 i)
          = .ok (b, f, idx) ∧ args.length ≤ idx.toNat) :
    Fails alloc (implLoop alloc (pre ++ formatText st ++ (123 :: tl ++ rest)) (pre.length + (formatText st).length + (123 :: tl).length) defaultFormat
      args (fuel + 1) pre.length (BitVec.ofNat 32 i) (typeFlags args >>> (i * 4))) := by
  have hlen := length_le_text st
  have hfind : find (pre ++ formatText st ++ (123 :: tl ++ rest)) pre.length (pre.length + (formatText st).length + (123 :: tl).length) 123
      = .ok (some (pre.length + (formatText st).length)) := by
    rw [List.cons_append]
    exact find_some (plain_no_open hst) (by simp) (by simp; omega)
  have hrd : rd (pre ++ formatText st ++ (123 :: tl ++ rest)) (pre.length + (formatText st).length + 1) = .ok c := by
    cases ht : tl ++ rest with
    | nil => rw [ht] at hhead; cases hhead
    | cons d ds =>
      rw [ht] at hhead
      obtain rfl : d = c := by simpa using hhead
      rw [List.cons_append, ht, show pre ++ formatText st ++ 123 :: (d :: ds) = (pre ++ formatText st ++ [123]) ++ d :: ds by simp]
      exact rd_mid _ _ _ (by simp; omega)
  have hprints := stretch_prints alloc hst pre (123 :: tl ++ rest) (mem := pre ++ formatText st ++ (123 :: tl ++ rest))
    (last := pre.length + (formatText st).length) (fuel := pre.length + (formatText st).length + (123 :: tl).length + 1) rfl rfl (by omega)
  have e : implLoop alloc (pre ++ formatText st ++ (123 :: tl ++ rest)) (pre.length + (formatText st).length + (123 :: tl).length) defaultFormat
      args (fuel + 1) pre.length (BitVec.ofNat 32 i) (typeFlags args >>> (i * 4)) = fun p => (do
        let r ← printEscaped alloc (pre ++ formatText st ++ (123 :: tl ++ rest)) (pre.length + (formatText st).length)
          (pre.length + (formatText st).length + (123 :: tl).length + 1) pre.length p
        if !r.2 then .ok r.1 else (fun p => .ok { p with ec := .einval }) r.1) := by
    funext p
    rw [implLoop, hfind, ok_bind]
    dsimp only
    congr 1
    funext q
    by_cases hq : q.2 = true
    · simp only [hq, Bool.not_true, Bool.false_eq_true, if_false]
      rw [hrd, ok_bind, if_neg hc]
      rcases hk with h | ⟨next, f, b, idx, h1, h2, h3, h4⟩
      · rw [h, ok_bind]
      · rw [h1, ok_bind]
        dsimp only
        rw [if_neg (by omega), h3, ok_bind]
        dsimp only
        rw [if_pos h4]
    · simp only [hq, Bool.not_false, if_true]
  rw [e]
  exact hprints.fails (fails_einval alloc)

theorem unclosed_fails (alloc : Alloc) (args : List Arg) (i : Nat) (pre tl rest : List Byte) {st : List Part} (hst : ∀ x ∈ st, x.Plain)
    (hcl : Part.closeBrace ∉ st) (fuel : Nat) {c : Byte} (hc : c ≠ 123) (hhead : (tl ++ rest).head? = some c) (htl : (125 : Byte) ∉ tl) :
    Fails alloc (implLoop alloc (pre ++ formatText st ++ (123 :: tl ++ rest)) (pre.length + (formatText st).length + (123 :: tl).length) defaultFormat
      args (fuel + 1) pre.length (BitVec.ofNat 32 i) (typeFlags args >>> (i * 4))) := by
  refine open_fails alloc args i pre tl rest hst fuel hc hhead (.inl ?_)
  have hl : pre.length + (formatText st).length + (123 :: tl).length = pre.length + (formatText st ++ 123 :: tl).length := by simp; omega
  rw [hl, show pre ++ formatText st ++ (123 :: tl ++ rest) = pre ++ (formatText st ++ 123 :: tl) ++ rest by simp]
  refine find_none ?_
  intro hx
  rcases List.mem_append.mp hx with hx | hx
  · exact plain_no_close hst hcl hx
  · rcases List.mem_cons.mp hx with hx | hx
    · revert hx; decide
    · exact htl hx

theorem index_fails (alloc : Alloc) (args : List Arg) (i : Nat) (hi : i ≤ 16) (pre tl rest : List Byte) {st : List Part} (hst : ∀ x ∈ st, x.Plain)
    (hcl : Part.closeBrace ∉ st) (fuel : Nat) {f : Field} (hf : f.Ok) (hidx : args.length ≤ f.index.getD i) :
    Fails alloc (implLoop alloc (pre ++ formatText st ++ (123 :: (f.written ++ 125 :: tl) ++ rest))
      (pre.length + (formatText st).length + (123 :: (f.written ++ 125 :: tl)).length) defaultFormat
      args (fuel + 1) pre.length (BitVec.ofNat 32 i) (typeFlags args >>> (i * 4))) := by
  obtain ⟨fm, hfield, -⟩ := parseField_spec hf (BitVec.ofNat 32 i)
  have hindex : ((f.index.map (BitVec.ofNat 32)).getD (BitVec.ofNat 32 i)).toNat = f.index.getD i := by
    cases hx : f.index with
    | none => simp; omega
    | some k => have := hf.index k hx; simp; omega
  obtain ⟨c, hc, hhead⟩ : ∃ c : Byte, c ≠ 123 ∧ ((f.written ++ 125 :: tl) ++ rest).head? = some c := by
    cases hw : f.written with
    | nil => exact ⟨125, by decide, rfl⟩
    | cons x xs => exact ⟨x, (field_no_brace hf x (by rw [hw]; simp)).1, rfl⟩
  refine open_fails alloc args i pre (f.written ++ 125 :: tl) rest hst fuel hc hhead (.inr ⟨pre.length + (formatText st ++ 123 :: f.written).length, fm, f.index.isSome,
    (f.index.map (BitVec.ofNat 32)).getD (BitVec.ofNat 32 i), ?_, by simp; omega, ?_, by rw [hindex]; exact hidx⟩)
  · rw [show pre ++ formatText st ++ (123 :: (f.written ++ 125 :: tl) ++ rest) = pre ++ (formatText st ++ 123 :: f.written) ++ 125 :: (tl ++ rest) by simp]
    refine find_some ?_ (by simp; omega) (by simp; omega)
    intro hx
    rcases List.mem_append.mp hx with hx | hx
    · exact plain_no_close hst hcl hx
    · rcases List.mem_cons.mp hx with hx | hx
      · revert hx; decide
      · exact (field_no_brace hf _ hx).2 rfl
  · have l1 : pre.length + (formatText st).length + 1 = (pre ++ formatText st ++ [(123 : Byte)]).length := by simp; omega
    have l2 : pre.length + (formatText st ++ (123 : Byte) :: f.written).length - (pre ++ formatText st ++ [(123 : Byte)]).length = f.written.length := by
      simp; omega
    rw [show pre ++ formatText st ++ (123 :: (f.written ++ 125 :: tl) ++ rest)
      = (pre ++ formatText st ++ [123]) ++ (f.written ++ 125 :: (tl ++ rest)) by simp, l1, List.drop_left, l2, List.take_left]
    exact hfield

/-! ## the whole -/

theorem printImpl_stray (alloc : Alloc) {args : List Arg} (hn : args.length ≤ 16) {ps : List Part} {out : List Byte} (hok : ∀ x ∈ ps, x.Ok)
    (hr : Renders args 0 ps out) (ha : AllFine args 0 ps) (hb : BracesFine false ps) (more rest : List Byte) (hmore : more.head? ≠ some 125) :
    Fails alloc (printImpl alloc (formatText ps ++ 125 :: more ++ rest) (formatText ps ++ 125 :: more).length defaultFormat args) := by
  have := impl_runs alloc (fun _ => Fails alloc) (fun _ _ _ _ h1 h2 => h1.fails h2) args hn (125 :: more ++ rest) (125 :: more).length (by simp) []
    (nextArg 0 ps) (fun pre st fuel hst _ _ => stray_fails alloc args _ pre more rest hst hmore fuel) ps.length ps (Nat.le_refl _) [] 0 out
    ((formatText ps ++ 125 :: more).length + 1) hok hr ha (by rw [List.append_nil]; exact hb) (by decide)
    (by have := length_le_text ps; simp; omega) rfl
  simp only [List.nil_append, List.length_nil, Nat.zero_add, Nat.zero_mul, BitVec.ushiftRight_zero] at this
  rw [← List.length_append, ← List.append_assoc] at this
  exact this

theorem printImpl_unclosed (alloc : Alloc) {args : List Arg} (hn : args.length ≤ 16) {ps : List Part} {out : List Byte} (hok : ∀ x ∈ ps, x.Ok)
    (hr : Renders args 0 ps out) (ha : AllFine args 0 ps) (hb : BracesFine false (ps ++ [.field {}])) (more rest : List Byte)
    {c : Byte} (hc : c ≠ 123) (hhead : (more ++ rest).head? = some c) (hmore : (125 : Byte) ∉ more) :
    Fails alloc (printImpl alloc (formatText ps ++ 123 :: more ++ rest) (formatText ps ++ 123 :: more).length defaultFormat args) := by
  have := impl_runs alloc (fun _ => Fails alloc) (fun _ _ _ _ h1 h2 => h1.fails h2) args hn (123 :: more ++ rest) (123 :: more).length (by simp)
    [.field {}] (nextArg 0 ps) (fun pre st fuel hst hx _ => unclosed_fails alloc args _ pre more rest hst (by simpa using hx.1) fuel hc hhead hmore)
    ps.length ps (Nat.le_refl _) [] 0 out ((formatText ps ++ 123 :: more).length + 1) hok hr ha hb (by decide)
    (by have := length_le_text ps; simp; omega) rfl
  simp only [List.nil_append, List.length_nil, Nat.zero_add, Nat.zero_mul, BitVec.ushiftRight_zero] at this
  rw [← List.length_append, ← List.append_assoc] at this
  exact this

theorem printImpl_index (alloc : Alloc) {args : List Arg} (hn : args.length ≤ 16) {ps : List Part} {out : List Byte} (hok : ∀ x ∈ ps, x.Ok)
    (hr : Renders args 0 ps out) (ha : AllFine args 0 ps) (hb : BracesFine false (ps ++ [.field {}])) {f : Field} (hf : f.Ok)
    (hidx : args.length ≤ f.index.getD (nextArg 0 ps)) (more rest : List Byte) :
    Fails alloc (printImpl alloc (formatText ps ++ 123 :: (f.written ++ 125 :: more) ++ rest) (formatText ps ++ 123 :: (f.written ++ 125 :: more)).length
      defaultFormat args) := by
  have := impl_runs alloc (fun _ => Fails alloc) (fun _ _ _ _ h1 h2 => h1.fails h2) args hn (123 :: (f.written ++ 125 :: more) ++ rest)
    (123 :: (f.written ++ 125 :: more)).length (by simp)
    [.field {}] (nextArg 0 ps) (fun pre st fuel hst hx he => index_fails alloc args _ he pre more rest hst (by simpa using hx.1) fuel hf hidx)
    ps.length ps (Nat.le_refl _) [] 0 out ((formatText ps ++ 123 :: (f.written ++ 125 :: more)).length + 1) hok hr ha hb (by decide)
    (by have := length_le_text ps; simp; omega) rfl
  simp only [List.nil_append, List.length_nil, Nat.zero_add, Nat.zero_mul, BitVec.ushiftRight_zero] at this
  rw [← List.length_append, ← List.append_assoc] at this
  exact this

end Tm.Fmt
