import Verif.Xml.TextLemmas
import Verif.Xml.Spec

/-!
What the functions of the tokenizer do, in closed form.
-/

namespace Tm.Xml

/-- The tokenizer has moved forward and has counted the newlines on its way. -/
def Adv (t t' : Tz) : Prop :=
  ∃ p, t.rest = p ++ t'.rest ∧ t'.loc.line = t.loc.line + BitVec.ofNat 32 (p.count 0x0A)

theorem Adv.refl (t : Tz) : Adv t t := ⟨[], rfl, by simp⟩

theorem Adv.trans {a b c : Tz} (h : Adv a b) (h' : Adv b c) : Adv a c := by
  obtain ⟨p, h1, h2⟩ := h
  obtain ⟨q, h3, h4⟩ := h'
  refine ⟨p ++ q, by rw [h1, h3, List.append_assoc], ?_⟩
  rw [h4, h2, List.count_append, BitVec.ofNat_add, BitVec.add_assoc]

theorem Adv.le {a b : Tz} (h : Adv a b) : b.rest.length ≤ a.rest.length := by
  obtain ⟨p, h1, _⟩ := h
  rw [h1, List.length_append]; omega

theorem Adv.mem {a b : Tz} (h : Adv a b) {x : Byte} (hx : x ∈ b.rest) : x ∈ a.rest := by
  obtain ⟨p, h1, _⟩ := h
  rw [h1]; exact List.mem_append_right _ hx

theorem advance_eq {t : Tz} {p s : List Byte} (h : t.rest = p ++ s) (hp : (0x0A : Byte) ∉ p) :
    ∃ t', advance t p.length = .ok t' ∧ t'.rest = s ∧ Adv t t' := by
  unfold advance
  rw [if_pos (by rw [h, List.length_append]; omega)]
  refine ⟨_, rfl, ?_, p, ?_, ?_⟩
  · show t.rest.drop p.length = s; rw [h, List.drop_left]
  · show _ = p ++ t.rest.drop p.length; rw [h, List.drop_left]
  · show t.loc.line = _
    rw [List.count_eq_zero.mpr hp]; simp

theorem deref_cons {s : List Byte} {b : Byte} (h : deref s = b) (hb : b ≠ 0) : ∃ r, s = b :: r := by
  cases s with
  | nil => exact absurd h.symm hb
  | cons c r => exact ⟨r, by rw [show c = b from h]⟩

/-- Skip one byte that is not a newline. -/
theorem advance_one {t : Tz} {b : Byte} (h : deref t.rest = b) (hb : b ≠ 0) (hn : b ≠ 0x0A) :
    ∃ t', advance t 1 = .ok t' ∧ t.rest = b :: t'.rest ∧ Adv t t' := by
  obtain ⟨r, hr⟩ := deref_cons h hb
  obtain ⟨t', h1, h2, h3⟩ := advance_eq (t := t) (p := [b]) (s := r) hr (by simpa using hn.symm)
  exact ⟨t', h1, by rw [hr, h2], h3⟩

theorem lineLoop_eq (p : Byte → Bool) (hp : p 0x0A = false) :
    ∀ (fuel : Nat) (loc : Loc) (s : List Byte), s.length < fuel →
      ∃ loc' cur, lineLoop p fuel loc s = .ok (loc', cur, s.dropWhile fun b => p b || b = 0x0A) ∧
        loc'.line = loc.line + BitVec.ofNat 32 ((s.takeWhile fun b => p b || b = 0x0A).count 0x0A) := by
  intro fuel
  induction fuel with
  | zero => intro loc s h; omega
  | succ fuel ih =>
    intro loc s h
    unfold lineLoop
    have e : s = s.takeWhile p ++ s.dropWhile p := List.takeWhile_append_dropWhile.symm
    have hno : (s.takeWhile p).count 0x0A = 0 := by
      rw [List.count_eq_zero]
      intro hm
      have := List.all_takeWhile (l := s) (p := p)
      rw [List.all_eq_true] at this
      rw [this _ hm] at hp; cases hp
    have hall : ∀ b ∈ s.takeWhile p, (p b || decide (b = 0x0A)) = true := by
      intro b hb
      have := List.all_takeWhile (l := s) (p := p)
      rw [List.all_eq_true] at this
      rw [this b hb]; rfl
    have hd : s.dropWhile (fun b => p b || b = 0x0A) = (s.dropWhile p).dropWhile (fun b => p b || b = 0x0A) := by
      conv => lhs; rw [e, List.dropWhile_append_of_pos hall]
    have ht : s.takeWhile (fun b => p b || b = 0x0A) = s.takeWhile p ++ (s.dropWhile p).takeWhile (fun b => p b || b = 0x0A) := by
      conv => lhs; rw [e, List.takeWhile_append_of_pos hall]
    split
    · rename_i hn
      obtain ⟨r, hr⟩ := deref_cons hn (by decide)
      have hl : r.length < fuel := by
        have := (List.dropWhile_sublist p (l := s)).length_le
        rw [hr, List.length_cons] at this; omega
      obtain ⟨loc', cur, h1, h2⟩ := ih { loc with column := 0, line := loc.line + 1 } r hl
      refine ⟨loc', cur, ?_, ?_⟩
      · rw [hr, List.tail_cons, h1, hd, hr, List.dropWhile_cons_of_pos (by simp)]
      · rw [h2, ht, hr, List.takeWhile_cons_of_pos (by simp), List.count_append, List.count_cons, hno]
        simp only [beq_self_eq_true, if_true, Nat.zero_add]
        rw [BitVec.ofNat_add, BitVec.add_comm (BitVec.ofNat 32 _) (BitVec.ofNat 32 1), ← BitVec.add_assoc]
        rfl
    · rename_i hn
      have hdd : (s.dropWhile p).dropWhile (fun b => p b || b = 0x0A) = s.dropWhile p ∧
          (s.dropWhile p).takeWhile (fun b => p b || b = 0x0A) = [] := by
        cases hc : s.dropWhile p with
        | nil => exact ⟨rfl, rfl⟩
        | cons b r =>
          have h1 : p b = false := by
            have := List.head?_dropWhile_not p s
            rw [hc] at this; simpa using this
          have h2 : ¬ b = 10#8 := by rw [hc] at hn; exact hn
          exact ⟨List.dropWhile_cons_of_neg (by simp [h1, h2]), List.takeWhile_cons_of_neg (by simp [h1, h2])⟩
      refine ⟨loc, s, by rw [hd, hdd.1], ?_⟩
      rw [ht, hdd.2, List.append_nil, hno]; simp

theorem moved_line (loc : Loc) (a b c : List Byte) : (moved loc a b c).loc.line = loc.line := rfl

/-- Skip whitespace. -/
theorem skipWs_eq (t : Tz) : ∃ t', skipWs t = .ok (t', deref t'.rest != 0) ∧ t'.rest = t.rest.dropWhile isSpace ∧ Adv t t' := by
  unfold skipWs
  have hf : (fun b : Byte => (decide (b = 0x20) || decide (b = 0x09) || decide (b = 0x0D)) || decide (b = 0x0A)) = isSpace := by
    funext b
    unfold isSpace
    rw [Bool.or_assoc, Bool.or_assoc, Bool.or_assoc, Bool.or_assoc, Bool.or_comm (decide (b = 0x0D))]
  obtain ⟨loc', cur, h1, h2⟩ := lineLoop_eq (fun b => b = 0x20 || b = 0x09 || b = 0x0D) (by decide) (t.rest.length + 1) t.loc t.rest (by omega)
  rw [h1, hf] at *
  rw [hf] at h2
  refine ⟨_, rfl, rfl, t.rest.takeWhile isSpace, List.takeWhile_append_dropWhile.symm, h2⟩

theorem between_suffix (p s : List Byte) : between (p ++ s) s = { text := p, after := s ++ [0] } := by
  unfold between
  rw [List.length_append, Nat.add_sub_cancel, List.take_left]

/-- Contents up to the next "<". -/
theorem parseContents_eq (t : Tz) : ∃ t' tok, parseContents t = .ok (tok, t') ∧ t'.rest = t.rest.dropWhile (· != 0x3C) ∧ Adv t t' ∧
    tok.kind = (if deref t'.rest = 0 then .error else .contents) ∧
    tok.contents = { text := t.rest.takeWhile (· != 0x3C), after := t'.rest ++ [0] } ∧ tok.loc.line = t.loc.line := by
  unfold parseContents
  have hf : (fun b : Byte => (b != 0x3C && b != 0x0A) || decide (b = 0x0A)) = (· != 0x3C) := by
    funext b
    by_cases h : b = 0x0A
    · subst h; decide
    · simp [show ¬ b = 10#8 from h]
  obtain ⟨loc', cur, h1, h2⟩ := lineLoop_eq (fun b => b != 0x3C && b != 0x0A) (by decide) (t.rest.length + 1) t.loc t.rest (by omega)
  rw [hf] at h1 h2
  rw [h1]
  have e : t.rest = t.rest.takeWhile (· != 0x3C) ++ t.rest.dropWhile (· != 0x3C) := List.takeWhile_append_dropWhile.symm
  refine ⟨_, _, rfl, rfl, ⟨_, e, h2⟩, rfl, ?_, rfl⟩
  dsimp only [moved]
  conv => lhs; arg 1; rw [e]
  exact between_suffix _ _

/-- The value of an attribute, when the tokenizer is at a quote. -/
theorem parseAttrValue_eq (t : Tz) (q : Byte) (hq : q = 0x22 ∨ q = 0x27) (s : List Byte) (ht : t.rest = q :: s) :
    ∃ t' tok, parseAttrValue t = .ok (tok, t') ∧ t'.rest = (s.dropWhile (· != q)).tail ∧ Adv t t' ∧
      tok.kind = (if q ∈ s then .attrValue else .error) ∧
      tok.contents = { text := s.takeWhile (· != q), after := s.dropWhile (· != q) ++ [0] } ∧ tok.loc.line = t.loc.line := by
  unfold parseAttrValue
  have hd : deref t.rest = q := by rw [ht]; rfl
  have hq0 : q ≠ 0x0A := by rcases hq with rfl | rfl <;> decide
  rw [hd, ht, List.tail_cons]
  rw [if_pos (by rcases hq with rfl | rfl <;> decide)]
  have hf : (fun b : Byte => (b != 0x0A && b != q) || decide (b = 0x0A)) = (· != q) := by
    funext b
    by_cases h : b = 0x0A
    · subst h; simp [show ¬ 10#8 = q from hq0.symm]
    · simp [show ¬ b = 10#8 from h]
  obtain ⟨loc', cur, h1, h2⟩ := lineLoop_eq (fun b => b != 0x0A && b != q) (by simp) ((q :: s).length + 1) t.loc s
    (by simp only [List.length_cons]; omega)
  rw [hf] at h1 h2
  rw [h1]
  dsimp only
  have e : s = s.takeWhile (· != q) ++ s.dropWhile (· != q) := List.takeWhile_append_dropWhile.symm
  have hb : between s (s.dropWhile (· != q)) = { text := s.takeWhile (· != q), after := s.dropWhile (· != q) ++ [0] } := by
    conv => lhs; arg 1; rw [e]
    exact between_suffix _ _
  have hmem : deref (s.dropWhile (· != q)) = q ↔ q ∈ s := by
    constructor
    · intro h
      obtain ⟨r, hr⟩ := deref_cons h (by rcases hq with rfl | rfl <;> decide)
      rw [e, hr]; simp
    · intro h
      cases hc : s.dropWhile (· != q) with
      | nil =>
        rw [hc, List.append_nil] at e
        have := List.all_takeWhile (l := s) (p := (· != q))
        rw [List.all_eq_true] at this
        rw [← e] at this
        have := this q h
        simp at this
      | cons b r =>
        have := List.head?_dropWhile_not (· != q) s
        rw [hc] at this
        show b = q
        simpa using this
  split
  · rename_i h
    obtain ⟨r, hr⟩ := deref_cons h (by rcases hq with rfl | rfl <;> decide)
    refine ⟨_, _, rfl, rfl, ⟨q :: s.takeWhile (· != q) ++ [q], ?_, ?_⟩, by rw [if_pos (hmem.mp h)], hb, rfl⟩
    · rw [ht]
      dsimp only [moved]
      rw [hr, List.tail_cons]
      conv => lhs; arg 2; rw [e, hr]
      simp
    · rw [moved_line, h2, List.cons_append, List.count_cons, List.count_append]
      simp [show ¬ q = 10#8 from hq0]
  · rename_i h
    have hno : q ∉ s := fun hm => h (hmem.mpr hm)
    have hnil : s.dropWhile (· != q) = [] := by
      cases hc : s.dropWhile (· != q) with
      | nil => rfl
      | cons b r =>
        have := List.head?_dropWhile_not (· != q) s
        rw [hc] at this
        exact absurd (show deref (s.dropWhile (· != q)) = q by rw [hc]; show b = q; simpa using this) h
    refine ⟨_, _, rfl, by dsimp only [moved]; rw [hnil]; rfl, ⟨q :: s.takeWhile (· != q), ?_, ?_⟩, by rw [if_neg hno], hb, rfl⟩
    · rw [ht]
      dsimp only [moved]
      conv => lhs; arg 2; rw [e]
      simp
    · rw [moved_line, h2, List.count_cons]
      simp [show ¬ q = 10#8 from hq0]

theorem parseAttrValue_not (t : Tz) (h : deref t.rest ≠ 0x22 ∧ deref t.rest ≠ 0x27) :
    parseAttrValue t = .ok (makeError t, t) := by
  unfold parseAttrValue makeError
  rw [if_neg (by simpa using h)]

theorem nameLoop_ok : ∀ (fuel : Nat) (s : List Byte), s.length < fuel → ∃ b, nameLoop fuel s = .ok b := by
  intro fuel
  induction fuel with
  | zero => intro s h; omega
  | succ fuel ih =>
    intro s h
    unfold nameLoop
    cases he : extract s with
    | none => exact ⟨_, rfl⟩
    | some p =>
      obtain ⟨cp, cur⟩ := p
      dsimp only
      split
      · exact ih cur (by have := extract_lt he; omega)
      · exact ⟨_, rfl⟩

theorem validName_ok (s : List Byte) : ∃ b, validName s = .ok b := by
  unfold validName
  cases he : extract s with
  | none => exact ⟨_, rfl⟩
  | some p =>
    obtain ⟨cp, cur⟩ := p
    dsimp only
    split
    · exact nameLoop_ok _ _ (by have := extract_lt he; omega)
    · exact ⟨_, rfl⟩

theorem at_ok {s : List Byte} {i : Nat} (h : i ≤ s.length) : ∃ b, at' s i = .ok b := by
  unfold at' rd
  rw [List.getElem?_eq_getElem (by simp only [List.length_append, List.length_cons, List.length_nil]; omega)]
  exact ⟨_, rfl⟩

theorem reserved_ok (s : List Byte) : ∃ b, reserved s = .ok b := by
  unfold reserved
  split
  · rename_i h
    have hl : 1 ≤ s.length := by
      cases s with
      | nil => exact absurd h (by decide)
      | cons b s => simp
    cases hm : at' s 1 with
    | error e => obtain ⟨b, hb⟩ := at_ok hl; rw [hm] at hb; cases hb
    | ok m =>
      dsimp only
      split
      · rename_i h2
        have hl2 : 2 ≤ s.length := by
          apply Nat.lt_of_le_of_ne hl
          intro e
          match s, e with
          | [b], _ =>
            have : at' [b] 1 = .ok 0 := rfl
            rw [this] at hm
            cases hm
            exact absurd h2 (by decide)
        obtain ⟨l, hl⟩ := at_ok hl2
        rw [hl]
        exact ⟨_, rfl⟩
      · exact ⟨_, rfl⟩
  · exact ⟨_, rfl⟩

/-- A name. -/
theorem parseName_eq (t : Tz) : ∃ t' tok, parseName t = .ok (tok, t') ∧ t'.rest = t.rest.dropWhile (fun b => !nameEnd b) ∧ Adv t t' ∧
    (tok.kind = .tagOpen ∨ tok.kind = .error) ∧
    tok.contents = { text := t.rest.takeWhile (fun b => !nameEnd b), after := t'.rest ++ [0] } ∧ tok.loc.line = t.loc.line ∧
    (tok.kind = .tagOpen → t'.rest.length < t.rest.length) ∧
    (∀ bad, (if (t.rest.takeWhile (fun b => !nameEnd b)).length = 3 then reserved (t.rest.dropWhile (fun b => !nameEnd b)) else .ok false) = .ok bad →
      validName (t.rest.takeWhile (fun b => !nameEnd b)) = .ok true → bad = false →
      tok.kind = .tagOpen) := by
  unfold parseName
  have e : t.rest = t.rest.takeWhile (fun b => !nameEnd b) ++ t.rest.dropWhile (fun b => !nameEnd b) :=
    List.takeWhile_append_dropWhile.symm
  have hb : between t.rest (t.rest.dropWhile (fun b => !nameEnd b)) =
      { text := t.rest.takeWhile (fun b => !nameEnd b), after := t.rest.dropWhile (fun b => !nameEnd b) ++ [0] } := by
    conv => lhs; arg 1; rw [e]
    exact between_suffix _ _
  dsimp only
  rw [hb]
  obtain ⟨v, hv⟩ := validName_ok (t.rest.takeWhile (fun b => !nameEnd b))
  dsimp only
  rw [hv]
  have hres : ∃ bad, (if (t.rest.takeWhile (fun b => !nameEnd b)).length = 3 then reserved (t.rest.dropWhile (fun b => !nameEnd b))
      else .ok false) = .ok bad := by
    split
    · exact reserved_ok _
    · exact ⟨_, rfl⟩
  obtain ⟨bad, hbad⟩ := hres
  dsimp only
  rw [hbad]
  have hno : (t.rest.takeWhile (fun b => !nameEnd b)).count 0x0A = 0 := by
    rw [List.count_eq_zero]
    intro hm
    have := List.all_takeWhile (l := t.rest) (p := fun b => !nameEnd b)
    rw [List.all_eq_true] at this
    have := this _ hm
    revert this; decide
  refine ⟨_, _, rfl, rfl, ⟨_, e, ?_⟩, ?_, rfl, rfl, ?_, ?_⟩
  · rw [moved_line, hno]; simp
  · dsimp only
    split <;> simp
  · dsimp only [moved]
    intro h
    split at h
    · rename_i hc
      simp only [Bool.and_eq_true, Bool.not_eq_true', List.isEmpty_eq_false_iff] at hc
      have := List.length_pos_iff.mpr hc.1.2
      have h2 := congrArg List.length e
      rw [List.length_append] at h2
      omega
    · cases h
  · intro bad' hbad' hv' hb'
    have e1 : bad = bad' := by cases hbad'; rfl
    have e2 : v = true := by cases hv'; rfl
    have hne : (t.rest.takeWhile (fun b => !nameEnd b)) ≠ [] := by
      intro hn
      rw [hn] at hv
      rw [e2] at hv
      revert hv; decide
    subst e2
    rw [e1, hb']
    simp [hne]

theorem strstr_suffix {pat s r : List Byte} (h : strstr pat s = some r) : ∃ p, s = p ++ r ∧ pat <+: r := by
  induction s with
  | nil =>
    unfold strstr at h
    split at h
    · rename_i hp
      cases h
      exact ⟨[], rfl, by rw [List.isEmpty_iff.mp hp]; exact List.nil_prefix⟩
    · cases h
  | cons b s ih =>
    unfold strstr at h
    split at h
    · rename_i hp
      cases h
      exact ⟨[], rfl, List.isPrefixOf_iff_prefix.mp hp⟩
    · obtain ⟨p, h1, h2⟩ := ih h
      exact ⟨b :: p, by rw [h1]; rfl, h2⟩

/-- Everything up to a pattern. -/
theorem parseUntil_some {t : Tz} {kind : Kind} {pat p s : List Byte} (h : strstr pat t.rest = some (pat ++ s))
    (hp : t.rest = p ++ (pat ++ s)) :
    ∃ t' tok, parseUntil t kind pat = (tok, t') ∧ t'.rest = s ∧ Adv t t' ∧ tok.kind = kind ∧
      tok.contents = { text := p, after := pat ++ s ++ [0] } ∧ tok.loc.line = t.loc.line := by
  unfold parseUntil
  rw [h]
  dsimp only
  rw [List.drop_left]
  have e : List.take (t.rest.length - s.length) t.rest = p ++ pat := by
    rw [hp, ← List.append_assoc, List.length_append (bs := s), Nat.add_sub_cancel, List.take_left]
  refine ⟨_, _, rfl, rfl, ⟨p ++ pat, by rw [hp]; simp, ?_⟩, rfl, ?_, rfl⟩
  · show t.loc.line + _ = _
    rw [e]
  · dsimp only
    rw [hp]
    exact between_suffix _ _

theorem parseUntil_none {t : Tz} {kind : Kind} {pat : List Byte} (h : strstr pat t.rest = none) :
    ∃ tok, parseUntil t kind pat = (tok, t) ∧ tok.kind = .error ∧
      tok.contents = { text := (t.rest ++ [0]).take 1, after := (t.rest ++ [0]).drop 1 } ∧ tok.loc.line = t.loc.line := by
  unfold parseUntil
  rw [h]
  exact ⟨_, rfl, rfl, rfl, rfl⟩

theorem parseUntil_cases (t : Tz) (kind : Kind) (pat : List Byte) :
    (∃ tok, parseUntil t kind pat = (tok, t) ∧ tok.kind = .error ∧
      tok.contents = { text := (t.rest ++ [0]).take 1, after := (t.rest ++ [0]).drop 1 } ∧ tok.loc.line = t.loc.line) ∨
    ∃ t' tok p, parseUntil t kind pat = (tok, t') ∧ t.rest = p ++ (pat ++ t'.rest) ∧ strstr pat t.rest = some (pat ++ t'.rest) ∧
      Adv t t' ∧ tok.kind = kind ∧
      tok.contents = { text := p, after := pat ++ t'.rest ++ [0] } ∧ tok.loc.line = t.loc.line := by
  cases h : strstr pat t.rest with
  | none => exact .inl (parseUntil_none h)
  | some r =>
    obtain ⟨p, h1, s, h2⟩ := strstr_suffix h
    subst h2
    obtain ⟨t', tok, h3, h4, h5⟩ := parseUntil_some (kind := kind) h h1
    subst h4
    exact .inr ⟨t', tok, p, h3, h1, rfl, h5⟩

/-- A comment, behind "<!--". -/
theorem parseComment_cases (t : Tz) :
    (∃ t' tok, parseComment t = .ok (tok, t') ∧ tok.kind = .error ∧ Adv t t' ∧
      ((tok.contents = { text := (t.rest ++ [0]).take 1, after := (t.rest ++ [0]).drop 1 }) ∨
        (∃ p, t.rest = p ++ (ascii "--" ++ t'.rest) ∧ tok.contents = { text := p, after := ascii "--" ++ t'.rest ++ [0] })) ∧
      tok.loc.line = t.loc.line) ∨
    ∃ t' tok p, parseComment t = .ok (tok, t') ∧ t.rest = p ++ (ascii "-->" ++ t'.rest) ∧
      strstr (ascii "--") t.rest = some (ascii "-->" ++ t'.rest) ∧ Adv t t' ∧
      tok.kind = .comment ∧ tok.contents = { text := p, after := ascii "-->" ++ t'.rest ++ [0] } ∧ tok.loc.line = t.loc.line := by
  have h2 : ascii "--" = [0x2D, 0x2D] := by decide
  have h3 : ascii "-->" = [0x2D, 0x2D, 0x3E] := by decide
  rw [h2, h3]
  unfold parseComment
  rcases parseUntil_cases t .comment [0x2D, 0x2D] with ⟨tok, e, k, c, l⟩ | ⟨t', tok, p, e, hp, hs, a, k, c, l⟩
  · rw [e]
    dsimp only
    split
    · exact .inl ⟨_, _, rfl, rfl, Adv.refl t, .inl c, l⟩
    · rename_i hd
      obtain ⟨t', h1, h2, h3⟩ := advance_one (t := t) (b := 0x3E) (by simpa using hd) (by decide) (by decide)
      rw [h1]
      exact .inl ⟨t', tok, rfl, k, h3, .inl c, l⟩
  · rw [e]
    dsimp only
    split
    · exact .inl ⟨_, _, rfl, rfl, a, .inr ⟨p, hp, c⟩, l⟩
    · rename_i hd
      obtain ⟨t'', h1, h2, h3⟩ := advance_one (t := t') (b := 0x3E) (by simpa using hd) (by decide) (by decide)
      rw [h1]
      refine .inr ⟨t'', tok, p, rfl, ?_, ?_, a.trans h3, k, ?_, l⟩
      · rw [hp, h2]; rfl
      · rw [hs, h2]; rfl
      · rw [c, h2]; rfl

/-- Processing instructions, behind "<?". -/
theorem parseInstructions_cases (t : Tz) :
    (∃ t' tok, parseInstructions t = (tok, t') ∧ tok.kind = .error ∧ Adv t t' ∧ tok.loc.line = t.loc.line) ∨
    ∃ t' tok p, parseInstructions t = (tok, t') ∧ t.rest = p ++ (ascii "?>" ++ t'.rest) ∧
      strstr (ascii "?>") t.rest = some (ascii "?>" ++ t'.rest) ∧ Adv t t' ∧
      tok.kind = .instructions ∧ tok.contents = { text := p, after := ascii "?>" ++ t'.rest ++ [0] } ∧ tok.loc.line = t.loc.line := by
  have h2 : ascii "?>" = [0x3F, 0x3E] := by decide
  rw [h2]
  unfold parseInstructions
  rcases parseUntil_cases t .instructions [0x3F, 0x3E] with ⟨tok, e, k, c, l⟩ | ⟨t', tok, p, e, hp, hs, a, k, c, l⟩
  · rw [e]
    dsimp only
    rw [if_pos k]
    exact .inl ⟨_, _, rfl, k, Adv.refl t, l⟩
  · rw [e]
    dsimp only
    rw [if_neg (by rw [k]; decide)]
    split
    · exact .inl ⟨_, _, rfl, rfl, a, l⟩
    · split
      · exact .inl ⟨_, _, rfl, rfl, a, l⟩
      · exact .inr ⟨t', tok, p, rfl, hp, hs, a, k, c, l⟩

theorem validLoop_ok : ∀ (fuel : Nat) (s : List Byte), s.length < fuel → ∃ b, validLoop fuel s = .ok b := by
  intro fuel
  induction fuel with
  | zero => intro s h; omega
  | succ fuel ih =>
    intro s h
    unfold validLoop
    cases he : extract s with
    | none => exact ⟨_, rfl⟩
    | some p =>
      obtain ⟨cp, cur⟩ := p
      have hl : cur.length < fuel := by have := extract_lt he; omega
      dsimp only
      repeat' split
      all_goals first
        | exact ⟨_, rfl⟩
        | exact ih cur hl

theorem validString_ok (v : View) : ∃ b, validString v = .ok b := validLoop_ok _ _ (Nat.lt_succ_self _)

end Tm.Xml
