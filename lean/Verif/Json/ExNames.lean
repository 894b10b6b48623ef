import Verif.Json.ExTerm

/-! # Names without quotation marks, keywords and comments of the extended tokenizer -/

namespace Tm.Json

open Tm Tm.Json.Spec

/-! ### Specification -/

/-- A letter of ASCII. -/
def Letter (b : Byte) : Prop := (0x41 ≤ b.toNat ∧ b.toNat ≤ 0x5A) ∨ (0x61 ≤ b.toNat ∧ b.toNat ≤ 0x7A)

instance (b : Byte) : Decidable (Letter b) := by unfold Letter; infer_instance

/-- A char that an identifier may begin with. -/
def IdentStart (b : Byte) : Prop := Letter b ∨ b = chr '_' ∨ b = chr '$'

instance (b : Byte) : Decidable (IdentStart b) := by unfold IdentStart; infer_instance

/-- A char of an identifier. -/
def IdentChar (b : Byte) : Prop := IdentStart b ∨ Digit b

instance (b : Byte) : Decidable (IdentChar b) := by unfold IdentChar; infer_instance

/-- An identifier. -/
def Identifier (s : List Byte) : Prop := ∃ b t, s = b :: t ∧ IdentStart b ∧ ∀ c ∈ t, IdentChar c

/-- The small letters `kw`, each of which may be a capital letter. -/
def AnyCase (kw s : List Byte) : Prop := s.length = kw.length ∧ ∀ (i : Nat) (k b : Byte), kw[i]? = some k → s[i]? = some b → b = k ∨ b.toNat + 0x20 = k.toNat

/-! ### C235: names without quotation marks -/

theorem isDigit_iff_digit (b : Byte) : isDigit b = true ↔ Digit b := by simp [isDigit, Digit]

theorem isAlpha_iff (b : Byte) : isAlpha b = true ↔ Letter b := by simp [isAlpha, Letter]

theorem isIdent_iff (b : Byte) : isIdent b = true ↔ IdentChar b := by
  simp only [isIdent, Bool.or_eq_true, decide_eq_true_eq, isDigit_iff_digit, isAlpha_iff, IdentChar, IdentStart]
  show ((Digit b ∨ Letter b) ∨ b = 0x5F) ∨ b = 0x24 ↔ (Letter b ∨ b = 0x5F ∨ b = 0x24) ∨ Digit b
  tauto

theorem start_iff (b : Byte) : (isDigit b || (!isAlpha b && b ≠ 0x5F && b ≠ 0x24)) = false ↔ IdentStart b := by
  have h : ∀ {x}, Letter x → ¬ Digit x := by intro x h1 h2; unfold Letter at h1; unfold Digit at h2; omega
  rw [Bool.or_eq_false_iff, Bool.and_eq_false_iff, Bool.and_eq_false_iff, Bool.not_eq_false']
  show _ ↔ (Letter b ∨ b = 0x5F ∨ b = 0x24)
  rw [isAlpha_iff, ← Bool.not_eq_true, isDigit_iff_digit]
  simp only [decide_eq_false_iff_not, ne_eq, not_not]
  constructor
  · rintro ⟨_, (h1 | h1) | h1⟩ <;> simp [h1]
  · rintro (h1 | h1 | h1)
    · exact ⟨h h1, Or.inl (Or.inl h1)⟩
    · exact ⟨by rw [h1]; decide, Or.inl (Or.inr h1)⟩
    · exact ⟨by rw [h1]; decide, Or.inr h1⟩

theorem dropDigits_ident : ∀ (s tail : List Byte), (∀ c ∈ s, IdentChar c) → (∀ c, tail.head? = some c → ¬ IdentChar c) → dropDigits isIdent (s ++ tail) = tail
  | [], [], _, _ => rfl
  | [], c :: t, _, h => by rw [List.nil_append, dropDigits, if_neg (by rw [isIdent_iff]; exact h c rfl)]
  | b :: s, tail, h1, h2 => by
    rw [List.cons_append, dropDigits, if_pos ((isIdent_iff b).2 (h1 b (by simp)))]
    exact dropDigits_ident s tail (fun c hc => h1 c (by simp [hc])) h2

theorem dropDigits_split : ∀ s : List Byte, ∃ u, s = u ++ dropDigits isIdent s ∧ ∀ c ∈ u, IdentChar c
  | [] => ⟨[], rfl, by simp⟩
  | b :: s => by
    rw [dropDigits]
    split
    · rename_i h
      obtain ⟨u, h1, h2⟩ := dropDigits_split s
      refine ⟨b :: u, by rw [List.cons_append, ← h1], fun c hc => ?_⟩
      rcases List.mem_cons.1 hc with rfl | hc
      · exact (isIdent_iff c).1 h
      · exact h2 c hc
    · exact ⟨[], rfl, by simp⟩

/-- Chars that an identifier begins with are not special. -/
theorem identStart_facts {b : Byte} (h : IdentStart b) : isWs b = false ∧ b ≠ 0x3A ∧ b ≠ 0x3D ∧ b ≠ 0x2C ∧ b ≠ 0x2F ∧ b ≠ 0x23 ∧ b ≠ 0x27 ∧ b ≠ 0x22 ∧ b ≠ 0x7B ∧ b ≠ 0x5B ∧ b ≠ 0x7D ∧ b ≠ 0x5D := by
  have key : ∀ b : Byte, IdentStart b → isWs b = false ∧ b ≠ 0x3A ∧ b ≠ 0x3D ∧ b ≠ 0x2C ∧ b ≠ 0x2F ∧ b ≠ 0x23 ∧ b ≠ 0x27 ∧ b ≠ 0x22 ∧ b ≠ 0x7B ∧ b ≠ 0x5B ∧ b ≠ 0x7D ∧ b ≠ 0x5D := by
    decide +kernel
  exact key b h

theorem dispatchEx_start (f : FlagsEx) (r : Reader) (ctx : Ctx) {b : Byte} (h : IdentStart b) : dispatchEx f r ctx b = defaultEx f ctx b r := by
  obtain ⟨_, _, _, _, h5, h6, h7, h8, h9, h10, h11, h12⟩ := identStart_facts h
  rw [dispatchEx, if_neg h5, if_neg h6, if_neg h7, if_neg h8, if_neg h9, if_neg h10, if_neg h11, if_neg h12]

/-- C235: where a name may be written, an identifier is read as one, as long as it is. -/
theorem C235_name (f : FlagsEx) (hf : f.unquoted = true) (ctx : Ctx) (r : Reader) (hn : AtName ctx r) (a name tail : List Byte) (ha : Ws a) (hi : Identifier name)
    (ht : ∀ c, tail.head? = some c → ¬ IdentChar c) (hr : r.rest = a ++ name ++ tail) :
    ∃ r', nextTokenEx f ctx r = .ok (.propName, r') ∧ Token r r' r.vtype name tail ∧ r'.last = .propName := by
  obtain ⟨b, s, rfl, hb, hs⟩ := hi
  obtain ⟨w, w1, w2, w3, _⟩ := identStart_facts hb
  obtain ⟨r1, e, h1⟩ := nextTokenEx_dispatch f ctx (show r.rest = a ++ b :: (s ++ tail) by rw [hr]; simp) ha w w1 w2 w3
  have hr1 : r1.rest = b :: (s ++ tail) := by rw [h1]
  have hl : r1.last = r.last := by rw [h1]
  obtain ⟨hc, hl'⟩ := hn
  rw [e, dispatchEx_start f r1 ctx hb, defaultEx, parseUnquoted, if_pos (by rcases hl' with h | h <;> simp [hc, hf, hl, h]), if_pos (by rcases hl' with h | h <;> simp [hl, h])]
  dsimp only
  rw [peek, hr1]
  dsimp only
  rw [ok_bind, if_neg (by rw [(start_iff b).2 hb]; simp), advance]
  dsimp only
  rw [ok_bind, ok_bind, if_pos rfl, dropDigits_ident s tail hs ht]
  refine ⟨_, rfl, ⟨?_, ?_, rfl, ?_⟩, rfl⟩
  · show r1.vtype = r.vtype
    rw [h1]
  · simp [View.text, setSize, moveTo]
    rw [show s.length + tail.length + 1 - tail.length = (b :: s).length by simp; omega, ← List.cons_append, List.take_left]
  · show r1.err = r.err
    rw [h1]

/-- The name `$a1` at the beginning of an object meets the hypotheses. -/
example : AtName .object { makeReader (ascii "$a1: 2}") with last := .objStart } ∧ Identifier (ascii "$a1") ∧ ∀ c, (ascii ": 2}").head? = some c → ¬ IdentChar c :=
  ⟨⟨rfl, Or.inl rfl⟩, ⟨_, _, rfl, by decide, by decide⟩, by intro c hc; injection hc with hc; rw [← hc]; decide⟩

/-- A string, or an identifier that is the current text, is before what is left. -/
def NameRead (s : List Byte) (r' : Reader) : Prop :=
  (∃ t, s = 0x22 :: t ∨ s = 0x27 :: t) ∨ (∃ name, Identifier name ∧ s = name ++ r'.rest ∧ r'.cur.text = .ok name)

theorem parseUnquoted_true {f : FlagsEx} {ctx : Ctx} {r r' : Reader} (h : parseUnquoted f ctx r = .ok (true, r')) : NameRead r.rest r' ∧ AtName ctx r := by
  rw [parseUnquoted] at h
  split at h
  · rename_i h1
    split at h
    · rename_i h2
      dsimp only at h
      cases hr : r.rest with
      | nil => rw [peek, hr] at h; cases h
      | cons b t =>
        rw [peek, hr] at h
        dsimp only at h
        rw [ok_bind] at h
        split at h
        · injection h with h; injection h with h; cases h
        · rename_i h3
          rw [advance] at h
          dsimp only at h
          rw [ok_bind] at h
          injection h with h
          injection h with _ h
          have hb := (start_iff b).1 (by simpa using h3)
          obtain ⟨u, e1, e2⟩ := dropDigits_split t
          refine ⟨Or.inr ⟨b :: u, ⟨b, u, rfl, hb, e2⟩, ?_, ?_⟩, ?_⟩
          · rw [← h]; show b :: t = b :: u ++ dropDigits isIdent t; rw [List.cons_append, ← e1]
          · have hcur : r'.cur = ⟨false, b :: t, (b :: t).length - (dropDigits isIdent t).length⟩ := by rw [← h]; rfl
            rw [hcur, View.text]
            dsimp only
            have hlen : (b :: t).length - (dropDigits isIdent t).length = (b :: u).length := by
              have := congrArg List.length e1
              simp at this ⊢; omega
            have ht : b :: t = (b :: u) ++ dropDigits isIdent t := by rw [List.cons_append, ← e1]
            rw [hlen, if_pos (by rw [ht]; simp), ht, List.take_left]
          · simp at h1 h2
            exact ⟨h1.1.1, h2⟩
    · injection h with h; injection h with h; cases h
  · injection h with h; injection h with h; cases h

theorem plainValue_name (f : FlagsEx) (ctx : Ctx) (r : Reader) : Good (plainValue f ctx r) (fun x => x.1 ≠ .propName) := by
  unfold plainValue
  refine .ite (fun _ => .ok (by simp)) fun _ => .ite (fun _ => .ok (by simp)) fun _ => ?_
  unfold readValueEx
  refine .ite (fun _ => .ok (by simp [advanceValue])) fun _ => .ite (fun _ => .ok (by simp [advanceValue])) fun _ => .ite (fun _ => .ok (by simp [advanceValue])) fun _ => ?_
  refine .bind (Q := fun x => x.1 = true → x.2.last = .value) ?_ fun x hx => .ite (fun h => .ok (by simp [hx h])) fun _ => .ok (by simp)
  unfold readNumberEx
  have hn := (readNumber_good f.toFlags { r with root := true }).mono fun x hx h => (hx.2 h).2
  exact .ite (fun _ => .ite (fun _ => .ok (by simp [advanceValue])) fun _ => .ite (fun _ => .ok (by simp [advanceValue])) fun _ => hn) fun _ => hn

/-- A separator or white space. -/
def BetweenTokens (b : Byte) : Prop := b = 0x20 ∨ b = 0x09 ∨ b = 0x0A ∨ b = 0x0D ∨ b = chr ':' ∨ b = chr '=' ∨ b = chr ','

theorem defaultEx_name (f : FlagsEx) (ctx : Ctx) (c : Byte) (r : Reader) : Good (defaultEx f ctx c r) (fun x => x.1 = .propName → NameRead r.rest x.2) := by
  unfold defaultEx
  refine Good.bind (Q := fun x => parseUnquoted f ctx r = .ok x) ⟨(parseUnquoted_good f ctx r).1, fun _ h => h⟩ fun x hx => .ite (fun h => .ok fun _ => ?_) fun _ => ?_
  · rw [show x = (true, x.2) by rw [← h]] at hx
    exact (parseUnquoted_true hx).1
  have hp : ∀ y : Reader, Good (plainValue f ctx y) (fun x => x.1 = .propName → NameRead r.rest x.2) := fun y => (plainValue_name f ctx y).mono fun z hz h => absurd h hz
  refine .ite (fun _ => ?_) fun _ => hp _
  refine Good.bind (parseCppRaw_good f ctx x.2) fun y hy => .ite (fun h => .ok fun h' => ?_) fun _ => .ite (fun _ => .ok (by simp)) fun _ => ?_
  · rw [(hy.2 h).1] at h'; cases h'
  · refine Good.bind (parsePythonRaw_good f ctx y.2) fun z hz => .ite (fun h => .ok fun h' => ?_) fun _ => hp _
    rw [(hz.2 h).1] at h'; cases h'

theorem dispatchEx_name (f : FlagsEx) (ctx : Ctx) (c : Byte) (t : List Byte) (r : Reader) (hr : r.rest = c :: t) :
    Good (dispatchEx f r ctx c) (fun x => x.1 = .propName → NameRead r.rest x.2) := by
  have hq : c = 0x22 ∨ c = 0x27 → Good (parseQuotedStringEx f ctx r) (fun x => x.1 = .propName → NameRead r.rest x.2) := by
    intro h
    refine ⟨(parseQuotedStringEx_good f ctx r).1, fun _ _ _ => Or.inl ⟨t, ?_⟩⟩
    rw [hr]
    rcases h with rfl | rfl
    · exact Or.inl rfl
    · exact Or.inr rfl
  have h1 : ∀ o, Good (parseStart r ctx o) (fun x => x.1 = .propName → NameRead r.rest x.2) := by
    intro o
    unfold parseStart
    refine .ite (fun _ => .ok (by simp)) fun _ => .ite (fun _ => .ok (by simp)) fun _ => ?_
    exact Good.bind (advance_good _) fun r' _ => .ok (by cases o <;> simp)
  have h2 : ∀ o, Good (parseEnd f.toFlags r ctx o) (fun x => x.1 = .propName → NameRead r.rest x.2) := by
    intro o
    unfold parseEnd
    refine .ite (fun _ => .ok (by simp)) fun _ => ?_
    exact Good.bind (advance_good _) fun r' _ => .ok (by cases o <;> simp)
  have he : ∀ (e : Reader), Good (.ok (.error, e) : C (Tok × Reader)) (fun x => x.1 = .propName → NameRead r.rest x.2) := fun e => .ok (by simp)
  unfold dispatchEx
  refine .ite (fun _ => ?_) fun _ => .ite (fun _ => ?_) fun _ => .ite (fun h => .ite (fun _ => hq (Or.inr h)) fun _ => he _) fun _ => .ite (fun h => hq (Or.inl h)) fun _ => .ite (fun _ => h1 _) fun _ =>
    .ite (fun _ => h1 _) fun _ => .ite (fun _ => h2 _) fun _ => .ite (fun _ => h2 _) fun _ => defaultEx_name f ctx c r
  · unfold parseCommentEx
    refine .ite (fun _ => ?_) fun _ => he _
    split
    · refine .ite (fun _ => ?_) fun _ => .ite (fun _ => ?_) fun _ => he _
      · unfold parseComment
        refine .ite (fun _ => Good.bind (advance_good _) fun r1 h1 => ?_) fun _ => he _
        split
        · exact he _
        · exact .ite (fun _ => Good.bind (advance_good _) fun r2 h2 => .ok (by simp)) fun _ => he _
      · unfold parseBlockComment
        refine .ite (fun _ => Good.bind (advance_good r) fun r1 g1 => ?_) fun _ => he _
        split
        · exact he _
        · refine .ite (fun _ => Good.bind (advance_good r1) fun r2 g2 => .ite (fun _ => he _) fun _ => ?_) fun _ => he _
          exact Good.bind (blockLoop_good _ _ (by dsimp only; omega)) fun x hx => .ite (fun _ => .ok (by simp)) fun _ => he _
    · exact he _
  · unfold parsePythonComment
    refine .ite (fun _ => Good.bind (peek_good r) fun d _ => .ite (fun _ => ?_) fun _ => he _) fun _ => he _
    exact Good.bind (advance_good r) fun r1 g1 => .ok (by simp)

theorem nextLoopEx_name (f : FlagsEx) (ctx : Ctx) (r' : Reader) : ∀ (fuel : Nat) (r : Reader), nextLoopEx f ctx fuel r = .ok (.propName, r') →
    ∃ a s, r.rest = a ++ s ∧ (∀ b ∈ a, BetweenTokens b) ∧ NameRead s r'
  | 0, r, h => by cases h
  | fuel + 1, r, h => by
    obtain ⟨w, hw, e, _⟩ := skipWhitespace_inv r
    have hb : ∀ b ∈ w, BetweenTokens b := fun b hb => by rcases hw b hb with h | h | h | h <;> simp [BetweenTokens, h]
    rw [nextLoopEx] at h
    split at h
    · split at h <;> (injection h with h; injection h with h; cases h)
    · rename_i c t ht
      rw [ht] at e
      have step : ∀ x : Reader, x.rest = t → BetweenTokens c → nextLoopEx f ctx fuel x = .ok (.propName, r') → ∃ a s, r.rest = a ++ s ∧ (∀ b ∈ a, BetweenTokens b) ∧ NameRead s r' := by
        intro x hx hc h
        obtain ⟨a, s, h1, h2, h3⟩ := nextLoopEx_name f ctx r' fuel x h
        refine ⟨w ++ c :: a, s, by rw [e, ← hx, h1]; simp, fun b hb' => ?_, h3⟩
        rcases List.mem_append.1 hb' with hb' | hb'
        · exact hb b hb'
        · rcases List.mem_cons.1 hb' with rfl | hb'
          · exact hc
          · exact h2 b hb'
      split at h
      · rename_i hc
        split at h
        · injection h with h; injection h with h; cases h
        · exact step _ rfl (by simp at hc; rcases hc with rfl | rfl <;> simp [BetweenTokens, chr]) h
      · split at h
        · rename_i hc
          split at h
          · injection h with h; injection h with h; cases h
          · exact step _ rfl (by rw [hc]; simp [BetweenTokens, chr]) h
        · have := (dispatchEx_name f ctx c t _ ht).2 _ h rfl
          rw [ht] at this
          exact ⟨w, c :: t, e, hb, this⟩

/-- C235: what is read as a name is a string or an identifier. -/
theorem C235_only (f : FlagsEx) (ctx : Ctx) (r r' : Reader) (h : nextTokenEx f ctx r = .ok (.propName, r')) :
    ∃ a s, r.rest = a ++ s ∧ (∀ b ∈ a, BetweenTokens b) ∧
      ((∃ t, s = chr '"' :: t ∨ s = chr '\'' :: t) ∨ ∃ name, Identifier name ∧ s = name ++ r'.rest ∧ r'.cur.text = .ok name) :=
  nextLoopEx_name f ctx r' _ r h

/-- A name that is no identifier is refused. -/
example : ∃ r, nextTokenEx { unquoted := true } .object { makeReader (ascii "1a: 2}") with last := .objStart } = .ok (.error, r) := ⟨_, rfl⟩
example : ∃ r, nextTokenEx { unquoted := true } .object { makeReader (ascii ", a: 2}") with last := .value } = .ok (.propName, r) := ⟨_, rfl⟩

/-! ### C237: keywords -/

theorem toLower_anyCase {k b : Byte} (hk : 0x61 ≤ k.toNat ∧ k.toNat ≤ 0x7A) (h : b = k ∨ b.toNat + 0x20 = k.toNat) : lowerCase b = k := by
  rcases h with rfl | h
  · rw [lowerCase, if_neg (by simp; omega)]
  · rw [lowerCase, if_pos (by simp; omega)]
    apply BitVec.eq_of_toNat_eq
    rw [BitVec.toNat_add]
    show (b.toNat + 0x20) % 256 = _
    omega

theorem map_anyCase {kw s : List Byte} (hk : ∀ k ∈ kw, 0x61 ≤ k.toNat ∧ k.toNat ≤ 0x7A) (h : AnyCase kw s) : s.map lowerCase = kw := by
  apply List.ext_getElem (by simp [h.1])
  intro i h1 h2
  rw [List.getElem_map]
  exact toLower_anyCase (hk _ (List.getElem_mem h2)) (h.2 i _ _ (List.getElem?_eq_getElem h2) (List.getElem?_eq_getElem (by simpa using h1)))

theorem startsWith_anyCase {kw s : List Byte} (hk : ∀ k ∈ kw, 0x61 ≤ k.toNat ∧ k.toNat ≤ 0x7A) (h : AnyCase kw s) (t : List Byte) : startsWith true (s ++ t) kw = true := by
  rw [startsWith, if_pos rfl, List.map_append, map_anyCase hk h]
  simp

/-- The first char decides. -/
theorem startsWith_first {i : Bool} {b k : Byte} {s kw : List Byte} (h : lowerCase b ≠ lowerCase k) (hk : lowerCase k = k ∨ i = false) : startsWith i (b :: s) (k :: kw) = false := by
  rw [startsWith]
  split
  · rename_i hi
    rcases hk with hk | hk
    · rw [List.map_cons, List.isPrefixOf, show (k == lowerCase b) = false by rw [beq_eq_false_iff_ne, ← hk]; exact Ne.symm h, Bool.false_and]
    · rw [hk] at hi; cases hi
  · rw [List.isPrefixOf, show (k == b) = false by rw [beq_eq_false_iff_ne]; rintro rfl; exact h rfl, Bool.false_and]

theorem canValueFollow_iff (r : Reader) (ctx : Ctx) : canValueFollow r ctx = true ↔ AtValue ctx r := by
  cases ctx <;> simp [canValueFollow, AtValue]

/-- Values that begin with a letter, a digit or a sign, other than raw strings. -/
theorem nextTokenEx_value (f : FlagsEx) (ctx : Ctx) {r : Reader} {a t : List Byte} {c : Byte} (hr : r.rest = a ++ c :: t) (ha : Ws a) (hv : AtValue ctx r) (he : r.err = .ok)
    (hc : IdentStart c ∨ c = 0x2B ∨ c = 0x2D) (h72 : c ≠ 0x72) (h52 : c ≠ 0x52) :
    ∃ r1, nextTokenEx f ctx r = readValueEx f r1 ∧ r1.rest = c :: t ∧ r1.err = .ok := by
  have hf : isWs c = false ∧ c ≠ 0x3A ∧ c ≠ 0x3D ∧ c ≠ 0x2C ∧ c ≠ 0x2F ∧ c ≠ 0x23 ∧ c ≠ 0x27 ∧ c ≠ 0x22 ∧ c ≠ 0x7B ∧ c ≠ 0x5B ∧ c ≠ 0x7D ∧ c ≠ 0x5D := by
    rcases hc with h | rfl | rfl
    · exact identStart_facts h
    · decide
    · decide
  obtain ⟨w, w1, w2, w3, h5, h6, h7, h8, h9, h10, h11, h12⟩ := hf
  obtain ⟨r1, e, h1⟩ := nextTokenEx_dispatch f ctx hr ha w w1 w2 w3
  have hu : parseUnquoted f ctx r1 = .ok (false, r1) := by
    rw [parseUnquoted, if_neg]
    cases ctx with
    | null => simp
    | array => simp
    | object => rw [h1]; simp [show r.last = .colon from hv]
  have hv1 : canValueFollow r1 ctx = true := by
    rw [canValueFollow_iff, h1]
    cases ctx <;> exact hv
  refine ⟨{ r1 with root := true }, ?_, by rw [h1], by rw [h1]; exact he⟩
  rw [e, dispatchEx, if_neg h5, if_neg h6, if_neg h7, if_neg h8, if_neg h9, if_neg h10, if_neg h11, if_neg h12, defaultEx, hu, ok_bind, if_neg (by simp),
    if_neg (by rw [Bool.or_eq_true, decide_eq_true_eq, decide_eq_true_eq]; exact fun h => h.elim h72 h52), plainValue, if_neg (by rw [h1]; simp [he]), hv1, if_neg (by simp)]

/-- The beginning of a keyword. -/
theorem anyCase_cons {k : Byte} {kw s : List Byte} (h : AnyCase (k :: kw) s) : ∃ b t, s = b :: t ∧ (b = k ∨ b.toNat + 0x20 = k.toNat) := by
  cases s with
  | nil => cases h.1
  | cons b t => exact ⟨b, t, rfl, h.2 0 k b rfl rfl⟩

/-- C237: with `JSON_READER_IGNORE_CASE_KEYWORDS` the keywords are read in capital and small letters. -/
theorem C237_keywords (f : FlagsEx) (hf : f.ignoreCase = true) (ctx : Ctx) (r : Reader) (hv : AtValue ctx r) (he : r.err = .ok) (a kw s tail : List Byte) (type : VType)
    (hk : (kw = ascii "true" ∧ type = .bool) ∨ (kw = ascii "false" ∧ type = .bool) ∨ (kw = ascii "null" ∧ type = .null)) (hs : AnyCase kw s) (ha : Ws a) (hr : r.rest = a ++ s ++ tail) :
    ∃ r', nextTokenEx f ctx r = .ok (.value, r') ∧ Token r r' type s tail := by
  have hlen := hs.1
  have fin : ∀ (r1 : Reader) (t : VType), r1.rest = s ++ tail → r1.err = .ok → ∃ r', (Except.ok (advanceValue r1 t kw.length) : C (Tok × Reader)) = .ok (.value, r') ∧ Token r r' t s tail := by
    intro r1 t h1 h2
    refine ⟨_, rfl, rfl, ?_, ?_, by rw [he]; exact h2⟩
    · rw [View.text]; dsimp only; rw [h1, ← hlen, if_pos (by simp), List.take_left]
    · dsimp only; rw [h1, ← hlen, List.drop_left]
  have hfirst : ∀ k kw', kw = k :: kw' → (k = 0x74 ∨ k = 0x66 ∨ k = 0x6E) → ∃ r1, nextTokenEx f ctx r = readValueEx f r1 ∧ r1.rest = s ++ tail ∧ r1.err = .ok ∧
      ∃ b t, s = b :: t ∧ (b = k ∨ b.toNat + 0x20 = k.toNat) := by
    intro k kw' e hk
    rw [e] at hs
    obtain ⟨b, t, rfl, hb⟩ := anyCase_cons hs
    have hl : IdentStart b ∧ b ≠ 0x72 ∧ b ≠ 0x52 := by
      have key : ∀ b k : Byte, (k = 0x74 ∨ k = 0x66 ∨ k = 0x6E) → (b = k ∨ b.toNat + 0x20 = k.toNat) → IdentStart b ∧ b ≠ 0x72 ∧ b ≠ 0x52 := by
        intro b k hk hb
        have hbn : b.toNat = k.toNat ∨ b.toNat + 0x20 = k.toNat := by rcases hb with rfl | h; exact Or.inl rfl; exact Or.inr h
        have h72 : b = 0x72 → b.toNat = 0x72 := fun h => by rw [h]; rfl
        have h52 : b = 0x52 → b.toNat = 0x52 := fun h => by rw [h]; rfl
        have hkn : k.toNat = 0x74 ∨ k.toNat = 0x66 ∨ k.toNat = 0x6E := by rcases hk with rfl | rfl | rfl <;> simp
        refine ⟨Or.inl ?_, fun h => ?_, fun h => ?_⟩
        · unfold Letter; omega
        · have := h72 h; omega
        · have := h52 h; omega
      exact key b k hk hb
    obtain ⟨r1, e1, e2, e3⟩ := nextTokenEx_value f ctx (show r.rest = a ++ b :: (t ++ tail) by rw [hr]; simp) ha hv he (Or.inl hl.1) hl.2.1 hl.2.2
    exact ⟨r1, e1, e2, e3, b, t, rfl, hb⟩
  rcases hk with ⟨rfl, rfl⟩ | ⟨rfl, rfl⟩ | ⟨rfl, rfl⟩
  · obtain ⟨r1, e1, e2, e3, _⟩ := hfirst 0x74 _ rfl (by simp)
    rw [e1, readValueEx, hf, e2, if_pos (show startsWith true (s ++ tail) kwTrue = true from startsWith_anyCase (kw := kwTrue) (by decide) hs tail)]
    exact fin r1 _ e2 e3
  · obtain ⟨r1, e1, e2, e3, b, t, eb, hb⟩ := hfirst 0x66 _ rfl (by simp)
    have hl := toLower_anyCase (k := 0x66) (by decide) hb
    have n1 : startsWith true (s ++ tail) kwTrue = false := by
      rw [eb, List.cons_append]; exact startsWith_first (by rw [hl]; decide) (Or.inl (by decide))
    rw [e1, readValueEx, hf, e2, n1, if_neg (by simp), if_pos (show startsWith true (s ++ tail) kwFalse = true from startsWith_anyCase (kw := kwFalse) (by decide) hs tail)]
    exact fin r1 _ e2 e3
  · obtain ⟨r1, e1, e2, e3, b, t, eb, hb⟩ := hfirst 0x6E _ rfl (by simp)
    have hl := toLower_anyCase (k := 0x6E) (by decide) hb
    have n1 : startsWith true (s ++ tail) kwTrue = false := by
      rw [eb, List.cons_append]; exact startsWith_first (by rw [hl]; decide) (Or.inl (by decide))
    have n2 : startsWith true (s ++ tail) kwFalse = false := by
      rw [eb, List.cons_append]; exact startsWith_first (by rw [hl]; decide) (Or.inl (by decide))
    rw [e1, readValueEx, hf, e2, n1, if_neg (by simp), n2, if_neg (by simp), if_pos (show startsWith true (s ++ tail) kwNull = true from startsWith_anyCase (kw := kwNull) (by decide) hs tail)]
    exact fin r1 _ e2 e3

example : AnyCase (ascii "true") (ascii "TruE") := by
  refine ⟨rfl, ?_⟩
  intro i k b h1 h2
  have hi : i < 4 := by
    have := (List.getElem?_eq_some_iff.1 h1).1
    exact this
  match i, hi with
  | 0, _ => cases h1; cases h2; decide
  | 1, _ => cases h1; cases h2; decide
  | 2, _ => cases h1; cases h2; decide
  | 3, _ => cases h1; cases h2; decide

end Tm.Json
