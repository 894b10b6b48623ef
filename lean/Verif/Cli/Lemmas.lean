import Verif.Cli.Spec

/-! # Lemmas about the command line parser -/

namespace Tm.Cli

theorem isDigit_iff (b : Byte) : isDigit b = true ↔ Digit b := by
  simp only [isDigit, Digit, BitVec.le_def, Bool.and_eq_true, decide_eq_true_eq]; rfl

theorem isAlpha_iff (b : Byte) : isAlpha b = true ↔ Letter b := by
  simp only [isAlpha, Letter, BitVec.le_def, Bool.or_eq_true, Bool.and_eq_true, decide_eq_true_eq]; rfl

theorem isAlnum_iff (b : Byte) : isAlnum b = true ↔ Letter b ∨ Digit b := by
  simp only [isAlnum, Bool.or_eq_true, isDigit_iff, isAlpha_iff]; exact or_comm

theorem deref_zero {s : Str} (h : CString s) : deref s = 0 ↔ s = [] := by
  cases s with
  | nil => simp [deref]
  | cons b t =>
    simp only [deref, List.headD_cons]
    constructor
    · intro hb; exact absurd (hb ▸ List.mem_cons_self) h
    · intro hb; exact nomatch hb

theorem deref_eq {s : Str} {c : Byte} (hc : c ≠ 0) : deref s = c ↔ ∃ t, s = c :: t := by
  cases s with
  | nil => simp only [deref, List.headD_nil]; exact ⟨fun h => absurd h.symm hc, fun ⟨_, h⟩ => nomatch h⟩
  | cons b t => simp [deref]

theorem dashed_iff {w : Str} : deref w = 0x2D ↔ Dashed w := deref_eq (by decide)

theorem CString.tail {b : Byte} {s : Str} (h : CString (b :: s)) : CString s := fun hm => h (List.mem_cons_of_mem _ hm)

theorem CString.append_right {a b : Str} (h : CString (a ++ b)) : CString b := fun hm => h (List.mem_append_right _ hm)

theorem isAlnum_deref {s : Str} : isAlnum (deref s) = true ↔ BeginsWell s := by
  rw [isAlnum_iff]
  cases s with
  | nil =>
    simp only [deref, List.headD_nil, BeginsWell]
    exact ⟨fun h => absurd h (by unfold Letter Digit; decide), fun ⟨_, _, h, _⟩ => nomatch h⟩
  | cons b t =>
    simp only [deref, List.headD_cons, BeginsWell]
    exact ⟨fun h => ⟨b, t, rfl, h⟩, fun ⟨_, _, h, h'⟩ => by cases h; exact h'⟩

/-- The test of lines 513-515. -/
theorem hasLong_iff {current name : Str} (hc : CString current) :
    (name.isPrefixOf current && (deref (current.drop name.length) = 0 || deref (current.drop name.length) = 0x3D)) = true ↔
      ∃ rest, current = name ++ rest ∧ (rest = [] ∨ ∃ v, rest = 0x3D :: v) := by
  simp only [Bool.and_eq_true, Bool.or_eq_true, decide_eq_true_eq, List.isPrefixOf_iff_prefix]
  constructor
  · rintro ⟨⟨rest, rfl⟩, h⟩
    rw [List.drop_left] at h
    refine ⟨rest, rfl, ?_⟩
    rcases h with h | h
    · exact Or.inl ((deref_zero hc.append_right).1 h)
    · exact Or.inr ((deref_eq (by decide)).1 h)
  · rintro ⟨rest, rfl, h⟩
    refine ⟨⟨rest, rfl⟩, ?_⟩
    rw [List.drop_left]
    rcases h with rfl | ⟨v, rfl⟩
    · exact Or.inl rfl
    · exact Or.inr rfl

theorem First.cons {o' : Opt} {os : List Opt} {P : Opt → Prop} {i : Nat} {o : Opt} (hn : ¬ P o') (h : First os P i o) :
    First (o' :: os) P (i + 1) o := by
  obtain ⟨h1, h2, h3⟩ := h
  refine ⟨h1, h2, ?_⟩
  intro j o'' hj hg
  cases j with
  | zero => cases hg; exact hn
  | succ j => exact h3 j o'' (by omega) hg

theorem First.unique {os : List Opt} {P : Opt → Prop} {i j : Nat} {o o' : Opt} (h : First os P i o) (h' : First os P j o') :
    i = j ∧ o = o' := by
  have hij : i = j := by
    rcases Nat.lt_trichotomy i j with hl | hl | hl
    · exact absurd h.2.1 (h'.2.2 i o hl h.1)
    · exact hl
    · exact absurd h'.2.1 (h.2.2 j o' hl h'.1)
  subst hij
  exact ⟨rfl, Option.some.inj (h.1.symm.trans h'.1)⟩

theorem Declared.tail {o : Opt} {os : List Opt} (h : Declared (o :: os)) : Declared os := fun o' ho' => h o' (List.mem_cons_of_mem _ ho')

/-- What the search for a long option finds. -/
theorem findLong_spec {current : Str} (hc : CString current) : ∀ (os : List Opt) (k : Nat),
    (findLong current k os = .ok none ∧ ∀ o ∈ os, ¬ HasLong o current) ∨
    (∃ i o name rest, findLong current k os = .ok (some (k + i, rest)) ∧ First os (HasLong · current) i o ∧ o.long = some name ∧
      current = name ++ rest ∧ (rest = [] ∨ ∃ v, rest = 0x3D :: v)) ∨
    ((∃ e, findLong current k os = .error e) ∧ ¬ Declared os)
  | [], k => Or.inl ⟨rfl, fun o ho => nomatch ho⟩
  | o :: os, k => by
    have ih := findLong_spec hc os (k + 1)
    cases hname : o.long with
    | none =>
      refine Or.inr (Or.inr ⟨⟨.invalid, by rw [findLong, hname]⟩, ?_⟩)
      intro hd
      obtain ⟨⟨name, hn, _⟩, _⟩ := hd o List.mem_cons_self
      rw [hname] at hn
      exact nomatch hn
    | some name =>
    by_cases ht : (name.isPrefixOf current && (deref (current.drop name.length) = 0 || deref (current.drop name.length) = 0x3D)) = true
    · obtain ⟨rest, he, hr⟩ := (hasLong_iff hc).1 ht
      refine Or.inr (Or.inl ⟨0, o, name, rest, ?_, ⟨rfl, ⟨name, hname, ?_⟩, fun j _ hj => nomatch hj⟩, hname, he, hr⟩)
      · rw [findLong, hname]
        simp only [ht, if_true, Nat.add_zero]
        rw [he, List.drop_left]
      · rcases hr with rfl | ⟨v, rfl⟩
        · exact Or.inl (by simpa using he)
        · exact Or.inr ⟨v, he⟩
    · have hno : ¬ HasLong o current := by
        rintro ⟨name', hn', h⟩
        have : name' = name := Option.some.inj (hn'.symm.trans hname)
        subst this
        apply ht
        rw [hasLong_iff hc]
        rcases h with h | ⟨v, h⟩
        · exact ⟨[], by simpa using h, Or.inl rfl⟩
        · exact ⟨_, h, Or.inr ⟨v, rfl⟩⟩
      have hstep : findLong current k (o :: os) = findLong current (k + 1) os := by
        rw [findLong, hname]
        simp only [Bool.not_eq_true] at ht
        simp only [ht]
        rfl
      rcases ih with ⟨h1, h2⟩ | ⟨i, o', name', rest, h1, h2, h3⟩ | ⟨⟨e, h1⟩, h2⟩
      · refine Or.inl ⟨hstep.trans h1, ?_⟩
        intro o' ho'
        rcases List.mem_cons.1 ho' with rfl | ho'
        · exact hno
        · exact h2 o' ho'
      · refine Or.inr (Or.inl ⟨i + 1, o', name', rest, ?_, h2.cons hno, h3⟩)
        rw [hstep, h1]
        congr 3
        omega
      · exact Or.inr (Or.inr ⟨⟨e, hstep.trans h1⟩, fun hd => h2 hd.tail⟩)

/-- What the search for a short option finds. -/
theorem findShort_spec {c : Byte} (hc : c ≠ 0) : ∀ (os : List Opt) (k : Nat),
    (findShort c k os = .ok none ∧ ∀ o ∈ os, ¬ HasShort o c) ∨
    (∃ i o, findShort c k os = .ok (some (k + i)) ∧ First os (HasShort · c) i o) ∨
    ((∃ e, findShort c k os = .error e) ∧ ¬ Declared os)
  | [], k => Or.inl ⟨rfl, fun o ho => nomatch ho⟩
  | o :: os, k => by
    have ih := findShort_spec hc os (k + 1)
    have key : (findShort c k (o :: os) = .ok (some k) ∧ HasShort o c) ∨
        (findShort c k (o :: os) = findShort c (k + 1) os ∧ ¬ HasShort o c) ∨
        ((∃ e, findShort c k (o :: os) = .error e) ∧ ¬ Declared (o :: os)) := by
      rw [findShort]
      cases hs : o.short with
      | none => exact Or.inr (Or.inl ⟨rfl, fun ⟨_, h⟩ => nomatch hs.symm.trans h⟩)
      | some name =>
        simp only
        by_cases hz : deref name = 0
        · rw [if_pos hz]
          refine Or.inr (Or.inr ⟨⟨_, rfl⟩, fun hd => ?_⟩)
          obtain ⟨hne, hcs⟩ := (hd o List.mem_cons_self).2 name hs
          exact hne ((deref_zero hcs).1 hz)
        · rw [if_neg hz]
          by_cases he : c = deref name
          · rw [if_pos he]
            obtain ⟨t, ht⟩ := (deref_eq hc).1 he.symm
            exact Or.inl ⟨rfl, t, by rw [hs, ht]⟩
          · rw [if_neg he]
            refine Or.inr (Or.inl ⟨rfl, ?_⟩)
            rintro ⟨t, ht⟩
            rw [hs] at ht
            cases ht
            exact he rfl
    rcases key with ⟨h1, h2⟩ | ⟨h1, h2⟩ | h
    · exact Or.inr (Or.inl ⟨0, o, h1, rfl, h2, fun j _ hj => nomatch hj⟩)
    · rcases ih with ⟨h3, h4⟩ | ⟨i, o', h3, h4⟩ | ⟨⟨e, h3⟩, h4⟩
      · refine Or.inl ⟨h1.trans h3, ?_⟩
        intro o' ho'
        rcases List.mem_cons.1 ho' with rfl | ho'
        · exact h2
        · exact h4 o' ho'
      · refine Or.inr (Or.inl ⟨i + 1, o', ?_, h4.cons h2⟩)
        rw [h1, h3]
        congr 2
        omega
      · exact Or.inr (Or.inr ⟨⟨e, h1.trans h3⟩, fun hd => h4 hd.tail⟩)
    · exact Or.inr (Or.inr h)

/-- A short option is never found for the null terminator. -/
theorem findShort_zero : ∀ (os : List Opt) (k : Nat),
    findShort 0 k os = .ok none ∨ ((∃ e, findShort 0 k os = .error e) ∧ ¬ Declared os)
  | [], _ => Or.inl rfl
  | o :: os, k => by
    have ih := findShort_zero os (k + 1)
    rw [findShort]
    cases hs : o.short with
    | none => exact ih.imp id (fun h => ⟨h.1, fun hd => h.2 hd.tail⟩)
    | some name =>
      simp only
      by_cases hz : deref name = 0
      · rw [if_pos hz]
        refine Or.inr ⟨⟨_, rfl⟩, fun hd => ?_⟩
        obtain ⟨hne, hcs⟩ := (hd o List.mem_cons_self).2 name hs
        exact hne ((deref_zero hcs).1 hz)
      · rw [if_neg hz, if_neg (fun h => hz h.symm)]
        exact ih.imp id (fun h => ⟨h.1, fun hd => h.2 hd.tail⟩)

/-! ## The options that were given -/

theorem flag_getLsbD (k j : Nat) (hk : k < 32) : (1#32 <<< k).getLsbD j = decide (j = k) := by
  rw [BitVec.getLsbD_shiftLeft, BitVec.getLsbD_one]
  by_cases h : j = k
  · subst h; simp [hk]
  · by_cases h' : j < k
    · simp [h', h]
    · have : ¬ (j - k = 0) := by omega
      simp [h, this]

theorem and_flag (w : BitVec 32) (k : Nat) (hk : k < 32) : w &&& 1#32 <<< k ≠ 0 ↔ w.getLsbD k = true := by
  constructor
  · intro h
    cases hb : w.getLsbD k with
    | true => rfl
    | false =>
      refine absurd (BitVec.eq_of_getLsbD_eq ?_) h
      intro j hj
      rw [BitVec.getLsbD_and, flag_getLsbD k j hk]
      by_cases hjk : j = k
      · subst hjk; simp [hb]
      · simp [hjk]
  · intro h he
    have := congrArg (fun x => BitVec.getLsbD x k) he
    simp [BitVec.getLsbD_and, flag_getLsbD k k hk, h] at this

theorem flag_ne (k : Nat) (hk : k < 32) : (1#32 <<< k) ≠ 0 := by
  intro he
  have := congrArg (fun x => BitVec.getLsbD x k) he
  simp [flag_getLsbD k k hk] at this

theorem flagPair_ok {i : Nat} (h : i < 128) : flagPair i = .ok (i / 32, 1#32 <<< (i % 32)) := by
  rw [flagPair, if_pos (by omega), if_pos (flag_ne _ (by omega))]

/-- The bit of an option. -/
def bit (given : List (BitVec 32)) (i : Nat) : Bool := (given.getD (i / 32) 0).getLsbD (i % 32)

theorem rd_given {given : List (BitVec 32)} (hl : given.length = 4) {i : Nat} (h : i < 128) :
    rd given (i / 32) = .ok (given.getD (i / 32) 0) := by
  have hi : i / 32 < given.length := by omega
  rw [rd, List.getElem?_eq_getElem hi, List.getD_eq_getElem?_getD, List.getElem?_eq_getElem hi]
  rfl

theorem bit_set {given : List (BitVec 32)} (hl : given.length = 4) {i : Nat} (h : i < 128) (j : Nat) :
    bit (given.set (i / 32) (given.getD (i / 32) 0 ||| 1#32 <<< (i % 32))) j = (bit given j || decide (j = i)) := by
  have hi : i / 32 < given.length := by omega
  unfold bit
  by_cases hw : j / 32 = i / 32
  · simp only [List.getD_eq_getElem?_getD]
    rw [hw, List.getElem?_set_self hi, Option.getD_some, BitVec.getLsbD_or, flag_getLsbD _ _ (by omega)]
    congr 1
    by_cases hji : j = i
    · subst hji; simp
    · have : ¬ (j % 32 = i % 32) := by omega
      simp [hji, this]
  · simp only [List.getD_eq_getElem?_getD]
    rw [List.getElem?_set_ne (fun h => hw h.symm)]
    have : ¬ (j = i) := fun h => hw (by rw [h])
    simp [this]

/-! ## Parsers -/

/-- The rest of a word of short options. -/
def Parser.text (p : Parser) : Str := p.currentArg.getD []

/-- The words that were not read. -/
def Parser.words (p : Parser) : List Str := p.argv.drop p.current

/-- A parser that delivered `ps` so far, apart from the word that is read. -/
structure Base (p₀ : Parser) (ps : List Parsed) (p : Parser) : Prop where
  argv : p.argv = p₀.argv
  options : p.options = p₀.options
  free : p.free = p₀.free
  hasLog : p.hasLog = p₀.hasLog
  log : p.log = p₀.log
  error : p.error = false
  mem : p.mem = effects p₀.options p₀.mem ps
  length : p.given.length = 4
  given : ∀ i, i < 128 → (bit p.given i = true ↔ ∃ q ∈ ps, q.option = some i)
  le : p.current ≤ p.argv.length

/-- A parser that delivered `ps` so far. -/
structure Inv (p₀ : Parser) (ps : List Parsed) (p : Parser) : Prop extends Base p₀ ps p where
  cstr : CString p.text
  suffix : ∀ t, p.text ≠ 0x2D :: t
  ahead : p.currentArg = some [] → NoneAhead p.words

/-- A fresh parser. -/
structure Fresh (p : Parser) : Prop where
  count : p.options.length ≤ 128
  current : p.current = 0
  given : p.given = [0, 0, 0, 0]
  currentArg : p.currentArg = none
  error : p.error = false
  log : p.log = []

theorem makeParser_fresh {argv opts free hasLog mem p} (h : makeParser argv opts free hasLog mem = .ok p) :
    Fresh p ∧ p.argv = argv ∧ p.options = opts ∧ p.free = free ∧ p.hasLog = hasLog ∧ p.mem = mem := by
  unfold makeParser at h
  split at h
  · split at h
    · cases h
      rename_i hc _
      exact ⟨⟨hc, rfl, rfl, rfl, rfl, rfl⟩, rfl, rfl, rfl, rfl, rfl⟩
    · cases h
  · cases h

theorem bit_fresh (i : Nat) : bit [0, 0, 0, 0] i = false := by
  unfold bit
  have : ∀ k, ([0, 0, 0, 0] : List (BitVec 32)).getD k 0 = 0 := by
    intro k
    match k with
    | 0 | 1 | 2 | 3 => rfl
    | k + 4 => rfl
  rw [this]
  exact BitVec.getLsbD_zero

theorem Fresh.inv {p : Parser} (h : Fresh p) : Inv p [] p := by
  have ht : p.text = [] := by rw [Parser.text, h.currentArg]; rfl
  refine ⟨⟨rfl, rfl, rfl, rfl, rfl, h.error, rfl, by rw [h.given]; rfl, ?_, by rw [h.current]; exact Nat.zero_le _⟩, ?_, ?_, ?_⟩
  · intro i _
    rw [h.given, bit_fresh]
    exact ⟨fun h => (nomatch h), fun ⟨_, h, _⟩ => nomatch h⟩
  · rw [ht]; exact fun h => nomatch h
  · intro t; rw [ht]; exact fun h => nomatch h
  · rw [h.currentArg]; exact fun h => nomatch h

theorem effects_append (opts : List Opt) (m : Mem) (ps : List Parsed) (q : Parsed) :
    effects opts m (ps ++ [q]) = effect opts (effects opts m ps) q := by
  unfold effects; rw [List.foldl_append]; rfl

end Tm.Cli
