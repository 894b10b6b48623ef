import Verif.Json.DocLemmas

/-! # Texts that end in an unfinished exponent are never accepted -/

namespace Tm.Json

open Tm Spec

/-- A result, if there is one, has the property. -/
def Post {α : Type} (x : C α) (Q : α → Prop) : Prop := ∀ a, x = .ok a → Q a

namespace Post

variable {α β : Type}

theorem ok {a : α} {Q : α → Prop} (h : Q a) : Post (.ok a) Q := fun _ e => by injection e with e; exact e ▸ h

theorem error {e : Fault} {Q : α → Prop} : Post (.error e : C α) Q := fun _ e => by cases e

theorem triv {x : C α} : Post x (fun _ => True) := fun _ _ => trivial

theorem bind {x : C α} {f : α → C β} {Q : α → Prop} {R : β → Prop} (h : Post x Q) (hf : ∀ a, Q a → Post (f a) R) :
    Post (x >>= f) R := by
  cases hx : x with
  | error e => rw [error_bind]; exact error
  | ok a => rw [ok_bind]; exact hf a (h a hx)

theorem mono {x : C α} {Q R : α → Prop} (h : Post x Q) (hq : ∀ a, Q a → R a) : Post x R := fun a e => hq a (h a e)

theorem ite {c : Prop} [Decidable c] {x y : C α} {Q : α → Prop} (h1 : c → Post x Q) (h2 : ¬ c → Post y Q) :
    Post (if c then x else y) Q := by
  split
  · exact h1 (by assumption)
  · exact h2 (by assumption)

end Post

/-- The text ends in a sign, or in an `e` after a digit or alone. -/
def Ruin (w : List Byte) : Prop :=
  (∃ p c, w = p ++ [c] ∧ (c = 0x2B ∨ c = 0x2D)) ∨ (∃ e, IsE e ∧ (w = [e] ∨ ∃ p d, Digit d ∧ w = p ++ [d, e]))

theorem BadEnd.ruin {w : List Byte} (h : BadEnd w) : Ruin w := by
  obtain ⟨p, d, t, hd, ⟨e, he, ht⟩, rfl⟩ := h
  rcases ht with rfl | rfl | rfl
  · exact Or.inr ⟨e, he, Or.inr ⟨p, d, hd, rfl⟩⟩
  · exact Or.inl ⟨p ++ [d, e], 0x2B, by simp, Or.inl rfl⟩
  · exact Or.inl ⟨p ++ [d, e], 0x2D, by simp, Or.inr rfl⟩

theorem last_inj {p q : List Byte} {c d : Byte} (h : p ++ [c] = q ++ [d]) : p = q ∧ c = d := by
  have := List.append_inj' h rfl
  exact ⟨this.1, by simpa using this.2⟩

theorem not_ruin {p : List Byte} {c : Byte} (h1 : c ≠ 0x2B) (h2 : c ≠ 0x2D) (h3 : ¬ IsE c) : ¬ Ruin (p ++ [c]) := by
  rintro (⟨q, d, h, hd⟩ | ⟨e, he, h | ⟨q, d, _, h⟩⟩)
  · obtain ⟨_, rfl⟩ := last_inj h
    rcases hd with hd | hd
    · exact h1 hd
    · exact h2 hd
  · have : p ++ [c] = [] ++ [e] := h
    obtain ⟨_, rfl⟩ := last_inj this
    exact h3 he
  · have : p ++ [c] = (q ++ [d]) ++ [e] := by rw [h]; simp
    obtain ⟨_, rfl⟩ := last_inj this
    exact h3 he

theorem not_ruin_e {p : List Byte} {c e : Byte} (h1 : ¬ Digit c) (h2 : e ≠ 0x2B) (h3 : e ≠ 0x2D) : ¬ Ruin (p ++ [c, e]) := by
  have hs : p ++ [c, e] = (p ++ [c]) ++ [e] := by simp
  rw [hs]
  rintro (⟨q, d, h, hd⟩ | ⟨e', he, h | ⟨q, d, hd, h⟩⟩)
  · obtain ⟨_, rfl⟩ := last_inj h
    rcases hd with hd | hd
    · exact h2 hd
    · exact h3 hd
  · have := congrArg List.length h
    simp at this
  · have : (p ++ [c]) ++ [e] = (q ++ [d]) ++ [e'] := by rw [h]; simp
    obtain ⟨h', _⟩ := last_inj this
    obtain ⟨_, rfl⟩ := last_inj h'
    exact h1 hd

theorem Ruin.rest {x k : List Byte} (h : Ruin (x ++ k)) (hx : ¬ Ruin x) : Ruin k := by
  rcases List.eq_nil_or_concat k with rfl | ⟨k0, c, rfl⟩
  · rw [List.append_nil] at h
    exact absurd h hx
  · have hk : k0.concat c = k0 ++ [c] := by simp
    rw [hk] at h ⊢
    rw [← List.append_assoc] at h
    rcases h with ⟨q, d, h, hd⟩ | ⟨e, he, h | ⟨q, d, hd, h⟩⟩
    · obtain ⟨_, rfl⟩ := last_inj h
      exact Or.inl ⟨k0, c, rfl, hd⟩
    · have : (x ++ k0) ++ [c] = [] ++ [e] := h
      obtain ⟨h', rfl⟩ := last_inj this
      have : k0 = [] := (List.append_eq_nil_iff.mp h').2
      exact Or.inr ⟨c, he, Or.inl (by rw [this]; rfl)⟩
    · have : (x ++ k0) ++ [c] = (q ++ [d]) ++ [e] := by rw [h]; simp
      obtain ⟨h', rfl⟩ := last_inj this
      rcases List.eq_nil_or_concat k0 with rfl | ⟨k1, d', rfl⟩
      · exact Or.inr ⟨c, he, Or.inl rfl⟩
      · have hk1 : k1.concat d' = k1 ++ [d'] := by simp
        rw [hk1, ← List.append_assoc] at h'
        obtain ⟨_, rfl⟩ := last_inj h'
        exact Or.inr ⟨c, he, Or.inr ⟨k1, d', hd, by simp⟩⟩

theorem ruin_nil : ¬ Ruin [] := by
  rintro (⟨q, d, h, _⟩ | ⟨e, _, h | ⟨q, d, _, h⟩⟩)
  · have := congrArg List.length h; simp at this
  · cases h
  · have := congrArg List.length h; simp at this

theorem ws_not_ruin {a : List Byte} (h : Ws a) : ¬ Ruin a := by
  rcases List.eq_nil_or_concat a with rfl | ⟨p, c, rfl⟩
  · exact ruin_nil
  · have hc := h c (by simp)
    rw [List.concat_eq_append]
    refine not_ruin ?_ ?_ ?_
    · rintro rfl; rcases hc with h | h | h | h <;> exact absurd h (by decide)
    · rintro rfl; rcases hc with h | h | h | h <;> exact absurd h (by decide)
    · rintro (rfl | rfl) <;> rcases hc with h | h | h | h <;> exact absurd h (by decide)

theorem sep_not_ruin {ctx : Ctx} {l l' : Tok} {sep : List Byte} (h : Sep ctx l l' sep) : ¬ Ruin sep := by
  have after : ∀ (a b : List Byte) (c : Byte), c ≠ 0x2B → c ≠ 0x2D → ¬ IsE c → Ws b → ¬ Ruin (a ++ c :: b) := by
    intro a b c h1 h2 h3 hb h
    have : a ++ c :: b = (a ++ [c]) ++ b := by simp
    rw [this] at h
    exact ws_not_ruin hb (h.rest (not_ruin h1 h2 h3))
  cases h with
  | ws h => exact ws_not_ruin h
  | comma _ _ _ hb => exact after _ _ _ (by decide) (by decide) (by rintro (h | h) <;> exact absurd h (by decide)) hb
  | colon _ _ hb => exact after _ _ _ (by decide) (by decide) (by rintro (h | h) <;> exact absurd h (by decide)) hb

theorem lexed_not_ruin {ctx : Ctx} {l tok : Tok} {r' : Reader} {body : List Byte} (h : Lexed ctx l r' tok body) : ¬ Ruin body := by
  have one : ∀ (p : List Byte) (c : Byte), c = 0x7B ∨ c = 0x5B ∨ c = 0x7D ∨ c = 0x5D ∨ c = 0x22 ∨ c = 0x6C → ¬ Ruin (p ++ [c]) := by
    intro p c hc
    refine not_ruin ?_ ?_ ?_
    · rintro rfl; rcases hc with h | h | h | h | h | h <;> exact absurd h (by decide)
    · rintro rfl; rcases hc with h | h | h | h | h | h <;> exact absurd h (by decide)
    · rintro (rfl | rfl) <;> rcases hc with h | h | h | h | h | h <;> exact absurd h (by decide)
  cases h with
  | objStart => exact one [] _ (by simp)
  | arrStart => exact one [] _ (by simp)
  | objEnd => exact one [] _ (by simp)
  | arrEnd => exact one [] _ (by simp)
  | @name raw => exact one (0x22 :: raw) 0x22 (by simp)
  | @str raw => exact one (0x22 :: raw) 0x22 (by simp)
  | eof => exact ruin_nil
  | scal _ hs =>
    cases hs with
    | null => exact one [0x6E, 0x75, 0x6C] 0x6C (by simp)
    | bool b =>
      cases b
      · exact not_ruin_e (p := [0x66, 0x61, 0x6C]) (c := 0x73) (e := 0x65) (by decide) (by decide) (by decide)
      · exact not_ruin_e (p := [0x74, 0x72]) (c := 0x75) (e := 0x65) (by decide) (by decide) (by decide)
    | num hn =>
      obtain ⟨p, c, h, hc⟩ := number_last hn
      rw [h]
      refine not_ruin ?_ ?_ ?_
      · rintro rfl; exact absurd hc (by decide)
      · rintro rfl; exact absurd hc (by decide)
      · rintro (rfl | rfl) <;> exact absurd hc (by decide)

/-- A token of such a text: an error, or the rest is such a text. -/
theorem tok_ruin (ctx : Ctx) {r : Reader} (h : Ruin r.rest) :
    Post (nextToken strict ctx r) (fun x => (x.1 = .error ∧ x.2.err ≠ .ok) ∨ (x.1 ≠ .eof ∧ x.2.last = x.1 ∧ Ruin x.2.rest)) := by
  have hres := nextToken_res ctx r
  generalize nextToken strict ctx r = x at hres
  cases hres with
  | oob => exact .error
  | error hf => exact .ok (Or.inl ⟨rfl, hf.1⟩)
  | @tok tok r' l sep body hs hlex hr he hl =>
    have hk : Ruin r'.rest := by
      rw [hr] at h
      exact (h.rest (sep_not_ruin hs)).rest (lexed_not_ruin hlex)
    refine .ok (Or.inr ⟨?_, hl, hk⟩)
    rintro rfl
    cases hlex with
    | eof _ h0 => rw [h0] at hk; exact ruin_nil hk

/-- What is known about a result that is no error. -/
def Spoilt (z : Err) (r : Reader) : Prop := z ≠ .ok ∨ (Ruin r.rest ∧ r.last ≠ .eof)

/-- What is known about a token. -/
def TokRuin (x : Tok × Reader) : Prop := (x.1 = .error ∧ x.2.err ≠ .ok) ∨ (x.1 ≠ .eof ∧ x.2.last = x.1 ∧ Ruin x.2.rest)

theorem value_ruin : ∀ (fuel : Nat) {r : Reader}, Ruin r.rest →
    Post (valueToken strict fuel r) TokRuin := by
  intro fuel
  induction fuel with
  | zero => intro _ _; exact .error
  | succ fuel ih =>
    intro r h
    rw [valueToken]
    refine Post.bind (tok_ruin .object h) fun x hx => .ite (fun hc => ih ?_) fun _ => .ok hx
    rcases hx with ⟨hx, _⟩ | ⟨_, _, hx⟩
    · rw [hx] at hc; cases hc
    · exact hx

theorem item_ruin {fuel : Nat}
    (ih : ∀ (isObj : Bool) (count : Nat) (acc : List (View × JVal)) (a : Alloc) {r : Reader}, Ruin r.rest →
      Post (readLoop strict fuel isObj count acc a r) (fun z => Spoilt z.err z.reader)) (a : Alloc) {y : Tok × Reader} (h : TokRuin y) :
    Post (item strict fuel a y) (fun z => Spoilt z.err z.reader) := by
  have hno : y.1 ≠ .error → Ruin y.2.rest ∧ y.2.last ≠ .eof := by
    intro hn
    rcases h with ⟨h, _⟩ | ⟨h1, h2, h3⟩
    · exact absurd h hn
    · exact ⟨h3, by rw [h2]; exact h1⟩
  unfold item
  refine .ite (fun ht => ?_) fun _ => .ite (fun ht => ?_) fun _ => .ite (fun he => .ok (Or.inl he)) fun _ => .error
  · have hr := hno (by intro e; rw [e] at ht; simp at ht)
    refine Post.bind .triv fun c _ => .ite (fun hc => .ok (Or.inl hc)) fun _ => ?_
    split
    · exact .ok (Or.inl (by simp))
    · exact Post.bind (ih _ _ _ _ hr.1) fun z hz => .ok hz
  · exact Post.bind .triv fun v _ => .ok (Or.inr (hno (by rw [ht]; simp)))

theorem read_ruin : ∀ (fuel : Nat) (isObj : Bool) (count : Nat) (acc : List (View × JVal)) (a : Alloc) {r : Reader}, Ruin r.rest →
    Post (readLoop strict fuel isObj count acc a r) (fun z => Spoilt z.err z.reader) := by
  intro fuel
  induction fuel with
  | zero => intro _ _ _ _ _ _; exact .error
  | succ fuel ih =>
    intro isObj count acc a r h
    rw [readLoop_eq]
    refine Post.bind (tok_ruin _ h) fun x hx => .ite (fun hend => .ok ?_) fun _ => .ite (fun hc => ih _ _ _ _ ?_) fun _ => .ite (fun ht => ?_) fun _ =>
      .ite (fun he => .ok (Or.inl he)) fun _ => .error
    · rcases hx with ⟨_, hx⟩ | ⟨h1, h2, hx⟩
      · exact Or.inl hx
      · exact Or.inr ⟨hx, by rw [h2]; exact h1⟩
    · rcases hx with ⟨hx, _⟩ | ⟨_, _, hx⟩
      · rw [hx] at hc; cases hc
      · exact hx
    · refine .ite (fun _ => ?_) fun _ => .error
      have hr : Ruin x.2.rest := by
        rcases hx with ⟨hx, _⟩ | ⟨_, _, hx⟩
        · rw [hx] at ht; simp at ht
        · exact hx
      have hy : Post (if isObj = true then valueToken strict (x.2.rest.length + 1) x.2 else .ok x) TokRuin :=
        .ite (fun _ => value_ruin _ hr) fun _ => .ok hx
      refine Post.bind hy fun y hy => Post.bind (item_ruin (fun i c acc a => ih i c acc a) a hy) fun z hz =>
        .ite (fun hz => .ok (Or.inl hz)) fun hok => ih _ _ _ _ ?_
      rcases hz with hz | ⟨hz, _⟩
      · exact absurd hz hok
      · exact hz

theorem eof_ruin {r : Reader} (h : Ruin r.rest) (hl : r.last ≠ .eof) (he : r.err = .ok) :
    Post (validUntilEof strict r) (fun r' => r'.err ≠ .ok) := by
  have h0 : r.rest ≠ [] := fun e => ruin_nil (e ▸ h)
  unfold validUntilEof
  rw [if_neg (by simp [h0, hl]), eofLoop]
  have hres := nextToken_res .null r
  have hpost := tok_ruin .null h
  generalize nextToken strict .null r = x at hres hpost
  cases hres with
  | oob => exact .error
  | @error r' hf =>
    rw [ok_bind]
    dsimp only
    rw [if_neg hf.1]
    exact .ok hf.1
  | @tok tok r' l sep body hs hlex hr he' hlast =>
    rw [ok_bind]
    have hnot : tok ≠ .eof := by
      rcases hpost _ rfl with ⟨h, _⟩ | ⟨h, _⟩
      · dsimp only at h; rw [h]; simp
      · exact h
    have hbad : Post (if r'.err = .ok then (Except.ok (setError { r' with rest := r.rest } .unexpectedToken) : C Reader) else .ok r')
        (fun r' => r'.err ≠ .ok) := .ite (fun _ => .ok (by simp [setError])) fun h => .ok h
    cases hlex with
    | eof => exact absurd rfl hnot
    | objEnd h => cases h
    | arrEnd h => cases h
    | name h => cases h
    | objStart => exact hbad
    | arrStart => exact hbad
    | str => exact hbad
    | scal => exact hbad

/-- Such a text is not accepted. -/
theorem document_ruin {al : Alloc} {s : List Byte} (h : Ruin s) : Post (makeDocument strict al s) (fun doc => doc.err ≠ .ok) := by
  have hres := nextToken_res .null (makeReader s)
  have hpost := tok_ruin .null (r := makeReader s) h
  generalize hx : nextToken strict .null (makeReader s) = x at hres hpost
  have hroot : ∀ (t : Tok) (r' : Reader), nextToken strict .null (makeReader s) = .ok (t, r') → t = .error →
      Post (makeDocument strict al s) (fun doc => doc.err ≠ .ok) := by
    intro t r' e ht
    unfold makeDocument readRootType
    rw [rootLoop, e, ok_bind]
    subst ht
    dsimp only
    rw [ok_bind]
    dsimp only
    rw [ok_bind]
    dsimp only
    rw [if_neg (by simp [setError]), ok_bind]
    exact Post.bind .triv fun _ _ => .ite (fun h => .ok h) fun h => absurd h (by simp [setError])
  cases hres with
  | oob =>
    unfold makeDocument readRootType
    rw [rootLoop, hx, error_bind, error_bind]
    exact .error
  | error hf => exact hroot _ _ hx rfl
  | @tok tok r' l sep body hs hlex hr he hlast =>
    have hnot : tok ≠ .eof := by
      rcases hpost _ rfl with ⟨h, _⟩ | ⟨h, _⟩
      · dsimp only at h; rw [h]; simp
      · exact h
    rcases lexed_cases hlex with ⟨hv, _⟩ | ⟨h, _⟩ | ⟨h, _⟩ | ⟨h, _⟩ | ⟨_, h⟩
    · rw [document_eq hv hx]
      refine Post.bind (item_ruin (fun i c acc a => read_ruin _ i c acc a) al (hpost _ rfl)) fun z hz => ?_
      by_cases hre : z.reader.err = .ok
      · rw [if_pos hre]
        rcases hz with hz | ⟨h1, h2⟩
        · exact Post.bind .triv fun r _ => Post.bind .triv fun _ _ => .ite (fun h => .ok h) fun _ => .ok hz
        · exact Post.bind (eof_ruin h1 h2 hre) fun r hr => Post.bind .triv fun _ _ => .ite (fun h => .ok h) fun h => absurd hr h
      · rw [if_neg hre, ok_bind]
        exact Post.bind .triv fun _ _ => .ite (fun h => .ok h) fun h => absurd hre h
    · cases h
    · cases h
    · cases h
    · exact absurd h hnot

/-- What is accepted is a text of the grammar. -/
theorem document_json {al : Alloc} {s : List Byte} {doc : Document} (e : makeDocument strict al s = .ok doc) (he : doc.err = .ok) :
    IsJson s := by
  by_cases hb : BadEnd s
  · exact absurd he (document_ruin hb.ruin doc e)
  · obtain ⟨doc', e', h⟩ := document_sound (al := al) hb
    rw [e] at e'
    injection e' with e'
    subst e'
    exact h he

end Tm.Json
