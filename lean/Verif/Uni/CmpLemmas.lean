import Verif.Uni.FoldLemmas
/-!
# Comparing texts
-/
namespace Tm.Uni

/-- The code points that a stream gives, and whether its end is reached then. -/
inductive Yields {σ : Type} (next : σ → C (Option (Nat × σ))) (atEnd : σ → Bool) : σ → List Nat → Bool → Prop where
  | nil {s : σ} : next s = .ok none → Yields next atEnd s [] (atEnd s)
  | cons {s t : σ} {c : Nat} {l : List Nat} {f : Bool} : next s = .ok (some (c, t)) → atEnd s = false → Yields next atEnd t l f →
      Yields next atEnd s (c :: l) f

theorem Yields.atEnd_eq {σ : Type} {next : σ → C (Option (Nat × σ))} {atEnd : σ → Bool} {s : σ} {l : List Nat} {f : Bool} (h : Yields next atEnd s l f) :
    atEnd s = (l.isEmpty && f) := by
  cases h with
  | nil => simp
  | cons _ h _ => simpa using h

/-- What the loop of the equality functions computes. -/
def eqv : List Nat → Bool → List Nat → Bool → Bool
  | [], fa, lb, fb => fa && (lb.isEmpty && fb)
  | _ :: la, fa, [], fb => (la.isEmpty && fa) && fb
  | c :: la, fa, d :: lb, fb => if c ≠ d then false else eqv la fa lb fb

theorem equals_yields {σ : Type} {next : σ → C (Option (Nat × σ))} {atEnd : σ → Bool} {a : σ} {la : List Nat} {fa : Bool} (h : Yields next atEnd a la fa) :
    ∀ {b : σ} {lb : List Nat} {fb : Bool} (fuel : Nat), Yields next atEnd b lb fb → la.length < fuel →
      equalsLoop next atEnd fuel a b = .ok (eqv la fa lb fb) := by
  induction h with
  | @nil a h =>
    intro b lb fb fuel hb hf
    cases fuel with
    | zero => omega
    | succ n =>
      rw [equalsLoop, h, ok_bind]
      simp only
      rw [hb.atEnd_eq]
      rfl
  | @cons a a' c la fa h1 h2 h3 ih =>
    intro b lb fb fuel hb hf
    cases fuel with
    | zero => omega
    | succ n =>
      rw [equalsLoop, h1, ok_bind]
      simp only
      cases hb with
      | nil h4 =>
        rw [h4, ok_bind]
        simp only
        rw [h3.atEnd_eq]
        rfl
      | @cons _ b' d lb _ h4 h5 h6 =>
        rw [h4, ok_bind]
        simp only
        rw [ih n h6 (by simpa using hf), eqv]
        split <;> rfl

theorem eqv_iff (la lb : List Nat) : eqv la true lb true = true ↔ la = lb ∨ ∃ x, la = lb ++ [x] := by
  induction la generalizing lb with
  | nil =>
    cases lb with
    | nil => simp [eqv]
    | cons d lb => simp [eqv]
  | cons c la ih =>
    cases lb with
    | nil => simp [eqv]
    | cons d lb =>
      rw [eqv]
      by_cases h : c = d
      · subst h
        rw [if_neg (by simp), ih]
        simp
      · rw [if_pos h]
        simp [h]

/-- What the loop of the comparisons computes, if nothing overflows. -/
def cmp : List Nat → Bool → List Nat → Bool → Int
  | [], fa, lb, fb => b2i (lb.isEmpty && fb) - b2i fa
  | _ :: la, fa, [], fb => b2i fb - b2i (la.isEmpty && fa)
  | c :: la, fa, d :: lb, fb => if c < d then -1 else if d < c then 1 else cmp la fa lb fb

theorem diff_small {c d : Nat} (hc : c < 2 ^ 31) (hd : d < 2 ^ 31) : diff32 c d = .ok ((c : Int) - d) := by
  unfold diff32 toInt32
  rw [if_pos hc, if_pos hd]
  simp only
  rw [if_pos (by omega)]

theorem compare_yields {σ : Type} {next : σ → C (Option (Nat × σ))} {atEnd : σ → Bool} {a : σ} {la : List Nat} {fa : Bool} (h : Yields next atEnd a la fa) :
    ∀ {b : σ} {lb : List Nat} {fb : Bool} (fuel : Nat), Yields next atEnd b lb fb → la.length < fuel → (∀ c ∈ la, c < 2 ^ 31) → (∀ c ∈ lb, c < 2 ^ 31) →
      compareLoop next atEnd fuel a b = .ok (cmp la fa lb fb) := by
  induction h with
  | @nil a h =>
    intro b lb fb fuel hb hf _ _
    cases fuel with
    | zero => omega
    | succ n =>
      rw [compareLoop, h, ok_bind]
      simp only
      rw [hb.atEnd_eq]
      rfl
  | @cons a a' c la fa h1 h2 h3 ih =>
    intro b lb fb fuel hb hf hla hlb
    cases fuel with
    | zero => omega
    | succ n =>
      rw [compareLoop, h1, ok_bind]
      simp only
      cases hb with
      | nil h4 =>
        rw [h4, ok_bind]
        simp only
        rw [h3.atEnd_eq]
        rfl
      | @cons _ b' d lb _ h4 h5 h6 =>
        rw [h4, ok_bind]
        simp only
        rw [diff_small (hla c (by simp)) (hlb d (by simp)), ok_bind,
          ih n h6 (by simpa using hf) (fun x hx => hla x (by simp [hx])) (fun x hx => hlb x (by simp [hx])), cmp]
        by_cases h7 : c < d
        · rw [if_pos h7, if_pos (by omega), if_pos (by omega)]
        · rw [if_neg h7]
          by_cases h8 : d < c
          · rw [if_pos h8, if_pos (by omega), if_neg (by omega)]
          · rw [if_neg h8, if_neg (by omega)]

theorem cmp_lex (la lb : List Nat) : (∀ x, la ≠ lb ++ [x]) → cmp la true lb true = lexBy (fun c d => decide (c < d)) la lb := by
  induction la generalizing lb with
  | nil =>
    intro _
    cases lb <;> rfl
  | cons c la ih =>
    intro h
    cases lb with
    | nil =>
      cases la with
      | nil => exact absurd rfl (h c)
      | cons d la => rfl
    | cons d lb =>
      rw [cmp, lexBy]
      simp only [decide_eq_true_eq]
      by_cases h7 : c < d
      · simp only [if_pos h7]
      · by_cases h8 : d < c
        · simp only [if_neg h7, if_pos h8]
        · simp only [if_neg h7, if_neg h8]
          have : c = d := by omega
          subst this
          exact ih lb (fun x hx => h x (by rw [hx]; rfl))

theorem cmp_more (lb : List Nat) (x : Nat) : cmp (lb ++ [x]) true lb true = 0 := by
  induction lb with
  | nil => rfl
  | cons d lb ih =>
    rw [List.cons_append, cmp, if_neg (Nat.lt_irrefl _), if_neg (Nat.lt_irrefl _)]
    exact ih

/-! ## The streams -/

theorem isEmpty_false_of_lt {t s : List Byte} (h : t.length < s.length) : s.isEmpty = false := by
  cases s with
  | nil => simp at h
  | cons _ _ => rfl

theorem yields_simple {s r : List Byte} {cs : List Nat} (h : Took s cs r) : Yields nextSimple List.isEmpty s (foldedSimple cs) r.isEmpty := by
  induction h with
  | nil h =>
    refine .nil ?_
    rw [nextSimple, h, ok_bind]
  | @cons s t r c cs h hc hl _ ih =>
    obtain ⟨e, -, h1, h2, -⟩ := data c (scalar_le hc)
    refine .cons ?_ (isEmpty_false_of_lt hl) ih
    rw [nextSimple, h, ok_bind]
    simp only
    rw [h1, ok_bind, h2]

theorem runNext_eq {i : Nat} {c : Nat} {l : List Nat} (h : RunAt i (c :: l)) :
    runNext i = .ok (c, if l = [] then none else some (i + 1)) ∧ c ≠ 0 ∧ (l ≠ [] → RunAt (i + 1) l) := by
  obtain ⟨h1, h2⟩ := h.at' 0 c rfl
  rw [Nat.add_zero] at h1
  have h3 : ∃ d, ucdRuns[i + 1]? = some d ∧ (d = 0 ↔ l = []) := by
    cases l with
    | nil => exact ⟨0, by simpa using h.stop, by simp⟩
    | cons d l =>
      obtain ⟨g1, g2⟩ := h.at' 1 d rfl
      exact ⟨d, g1, by simp [g2]⟩
  obtain ⟨d, h4, h5⟩ := h3
  refine ⟨?_, h2, fun hl => ⟨hl, fun j x hj => ?_, ?_⟩⟩
  · rw [runNext, rd_eq h1, ok_bind, decide_eq_true h2, assert, if_pos rfl, ok_bind, rd_eq h4, ok_bind]
    simp only [h5]
  · have := h.at' (j + 1) x (by simpa using hj)
    rw [show i + 1 + j = i + (j + 1) by omega]
    exact this
  · have := h.stop
    rw [List.length_cons] at this
    rw [show i + 1 + l.length = i + (l.length + 1) by omega]
    exact this

/-- A stream in the middle of a run, for the two functions. -/
theorem yields_run {next : FoldStream → C (Option (Nat × FoldStream))} {t : List Byte} {L : List Nat} {f : Bool}
    (hnext : ∀ (i c : Nat) (run : Option Nat), runNext i = .ok (c, run) → (57 < c) → next ⟨t, some i⟩ = .ok (some (c, ⟨t, run⟩)))
    (hL : Yields next FoldStream.atEnd ⟨t, none⟩ L f) : ∀ (l : List Nat) (i : Nat), RunAt i l → (∀ c ∈ l, 57 < c) →
    Yields next FoldStream.atEnd ⟨t, some i⟩ (l ++ L) f := by
  intro l
  induction l with
  | nil =>
    intro i h
    exact absurd rfl h.some
  | cons c l ih =>
    intro i h hd
    obtain ⟨h1, h2, h3⟩ := runNext_eq h
    refine .cons (hnext i c _ h1 (hd c (by simp))) (by simp [FoldStream.atEnd]) ?_
    by_cases hl : l = []
    · subst hl
      rw [if_pos rfl]
      exact hL
    · rw [if_neg hl]
      exact ih (i + 1) (h3 hl) (fun x hx => hd x (by simp [hx]))

theorem yields_full {s r : List Byte} {cs : List Nat} (h : Took s cs r) : Yields nextFull FoldStream.atEnd ⟨s, none⟩ (foldedFull cs) r.isEmpty := by
  induction h with
  | @nil s h =>
    have e : s.isEmpty = FoldStream.atEnd ⟨s, none⟩ := by simp [FoldStream.atEnd]
    rw [e]
    refine .nil ?_
    rw [nextFull]
    simp only
    rw [h, ok_bind]
  | @cons s t r c cs h hc hl _ ih =>
    obtain ⟨e, -, h1, h2, h3, h4⟩ := data c (scalar_le hc)
    have hend : FoldStream.atEnd ⟨s, none⟩ = false := by simp [FoldStream.atEnd, isEmpty_false_of_lt hl]
    have hn : nextFull ⟨s, none⟩ = (if e.full ≠ 0 then do
        let (c, run) ← runNext (0 + e.full)
        .ok (some (c, ⟨t, run⟩))
      else .ok (some (folded c e, ⟨t, none⟩))) := by
      rw [nextFull]
      simp only
      rw [h, ok_bind]
      simp only
      rw [h1, ok_bind]
    rw [foldedFull, List.flatMap_cons]
    by_cases h0 : e.full = 0
    · rw [h3 h0]
      refine .cons ?_ hend ih
      rw [hn, if_neg (by simpa using h0), h2]
    · have h5 := h4 h0
      rcases fullFold_cases c with g | ⟨g, -, -⟩
      · rw [g] at h5 ⊢
        obtain ⟨g1, g2, g3⟩ := runNext_eq h5
        refine .cons ?_ hend ih
        rw [hn, if_pos h0, Nat.zero_add, g1]
        rfl
      · obtain ⟨x, l, hx⟩ := List.exists_cons_of_ne_nil (fullFold_ne c)
        rw [hx] at h5 g ⊢
        obtain ⟨g1, g2, g3⟩ := runNext_eq h5
        rw [List.cons_append]
        refine .cons (by rw [hn, if_pos h0, Nat.zero_add, g1]; rfl) hend ?_
        by_cases hl : l = []
        · subst hl
          rw [if_pos rfl]
          exact ih
        · rw [if_neg hl]
          refine yields_run (fun i c run hr _ => ?_) ih l _ (g3 hl) (fun y hy => (g y (by simp [hy])).1)
          rw [nextFull]
          simp only
          rw [hr]
          rfl

/-! ## Lengths -/

theorem took_length {s r : List Byte} {cs : List Nat} (h : Took s cs r) : cs.length ≤ s.length := by
  induction h with
  | nil => simp
  | cons _ _ hl _ ih =>
    rw [List.length_cons]
    omega

theorem foldedSimple_length (cs : List Nat) : (foldedSimple cs).length = cs.length := List.length_map _

theorem foldedFull_length (cs : List Nat) : (foldedFull cs).length ≤ 3 * cs.length := by
  induction cs with
  | nil => simp [foldedFull]
  | cons c cs ih =>
    rw [foldedFull, List.flatMap_cons, List.length_append, List.length_cons]
    have := fullFold_length c
    unfold foldedFull at ih
    omega

/-! ## Texts for people -/

/-- How a token is represented. -/
def code : Token → Nat
  | .letter c => c
  | .number n => (n % 2 ^ 32 + 0x10FFFF) % 2 ^ 32

theorem first_byte {c : Nat} (hc : Scalar c) (hd : ¬ (48 ≤ c ∧ c ≤ 57)) : ∃ b t, utf8 c = b :: t ∧ ¬ (48 ≤ b.toNat ∧ b.toNat ≤ 57) := by
  have hm := scalar_le hc
  by_cases h1 : c < 0x80
  · exact ⟨_, _, utf8_1 h1, by rw [b8 (by omega)]; exact hd⟩
  · by_cases h2 : c < 0x800
    · exact ⟨_, _, utf8_2 (by omega) h2, by rw [b8 (by omega)]; omega⟩
    · by_cases h3 : c < 0x10000
      · exact ⟨_, _, utf8_3 (by omega) h3, by rw [b8 (by omega)]; omega⟩
      · exact ⟨_, _, utf8_4 (by omega), by rw [b8 (by omega)]; omega⟩

theorem digits_spec : ∀ (cs : List Nat) (n : Nat), Scalars cs → ∃ m rest, Scalars rest ∧ rest.length ≤ cs.length ∧
    digitsLoop (encode utf8 cs) (n % 2 ^ 32) = (m % 2 ^ 32, encode utf8 rest) ∧ ∀ fold, tokens fold (some n) cs = .number m :: tokens fold none rest := by
  intro cs
  induction cs with
  | nil =>
    intro n h
    exact ⟨n, [], h, Nat.le_refl _, rfl, fun fold => by simp [tokens]⟩
  | cons c cs ih =>
    intro n h
    obtain ⟨h1, h2⟩ := scalars_cons.1 h
    by_cases hd : 48 ≤ c ∧ c ≤ 57
    · obtain ⟨m, rest, g1, g2, g3, g4⟩ := ih (10 * n + (c - 48)) h2
      refine ⟨m, rest, g1, by rw [List.length_cons]; omega, ?_, fun fold => ?_⟩
      · rw [encode_cons, utf8_1 (by omega), List.singleton_append, digitsLoop, b8 (by omega), if_pos hd, ← g3]
        congr 1
        omega
      · rw [tokens, if_pos hd]
        exact g4 fold
    · refine ⟨n, c :: cs, h, Nat.le_refl _, ?_, fun fold => ?_⟩
      · obtain ⟨b, t, hb, hb'⟩ := first_byte h1 hd
        rw [encode_cons, hb, List.cons_append, digitsLoop, if_neg hb']
      · rw [tokens, if_neg hd, tokens, if_neg hd]
        simp

theorem yields_humanSimple : ∀ (n : Nat) (cs : List Nat), cs.length ≤ n → Scalars cs →
    Yields nextHumanSimple List.isEmpty (encode utf8 cs) ((tokens (fun c => [simpleFold c]) none cs).map code) true := by
  intro n
  induction n with
  | zero =>
    intro cs hn h
    rw [List.eq_nil_of_length_eq_zero (by omega : cs.length = 0)]
    exact .nil rfl
  | succ n ih =>
    intro cs hn h
    cases cs with
    | nil => exact .nil rfl
    | cons c cs =>
      obtain ⟨h1, h2⟩ := scalars_cons.1 h
      have hend : (encode utf8 (c :: cs)).isEmpty = false := by
        rw [encode_cons]
        exact isEmpty_false_of_lt (t := []) (by rw [List.length_append]; have := utf8_pos c; simp only [List.length_nil]; omega)
      rw [List.length_cons] at hn
      by_cases hd : 48 ≤ c ∧ c ≤ 57
      · obtain ⟨m, rest, g1, g2, g3, g4⟩ := digits_spec cs (c - 48) h2
        have e : tokens (fun c => [simpleFold c]) none (c :: cs) = .number m :: tokens (fun c => [simpleFold c]) none rest := by
          rw [tokens, if_pos hd, ← g4]
          simp
        rw [e, List.map_cons]
        refine .cons ?_ hend (ih rest (by omega) g1)
        have hx : utf8Extract (encode utf8 (c :: cs)) = .ok (some (c, encode utf8 cs)) := by
          rw [encode_cons]
          exact utf8Extract_utf8 c h1 _
        have hl : digitsLoop (encode utf8 (c :: cs)) 0 = (m % 2 ^ 32, encode utf8 rest) := by
          rw [encode_cons, utf8_1 (by omega), List.singleton_append, digitsLoop, b8 (by omega), if_pos hd, ← g3]
          congr 1
          omega
        rw [nextHumanSimple, hx, ok_bind]
        simp only
        rw [if_neg (by omega), hl]
        rfl
      · obtain ⟨e, -, k1, k2, -⟩ := data c (scalar_le h1)
        rw [tokens, if_neg hd]
        refine .cons (t := encode utf8 cs) ?_ hend (ih cs (by omega) h2)
        rw [nextHumanSimple, encode_cons, utf8Extract_utf8 c h1, ok_bind]
        simp only
        rw [if_pos (by omega), k1, ok_bind, k2]
        rfl

theorem yields_human : ∀ (n : Nat) (cs : List Nat), cs.length ≤ n → Scalars cs →
    Yields nextHuman FoldStream.atEnd ⟨encode utf8 cs, none⟩ ((tokens fullFold none cs).map code) true := by
  intro n
  induction n with
  | zero =>
    intro cs hn h
    rw [List.eq_nil_of_length_eq_zero (by omega : cs.length = 0)]
    exact .nil rfl
  | succ n ih =>
    intro cs hn h
    cases cs with
    | nil => exact .nil rfl
    | cons c cs =>
      obtain ⟨h1, h2⟩ := scalars_cons.1 h
      have hend' : (encode utf8 (c :: cs)).isEmpty = false := by
        rw [encode_cons]
        exact isEmpty_false_of_lt (t := []) (by rw [List.length_append]; have := utf8_pos c; simp only [List.length_nil]; omega)
      have hend : FoldStream.atEnd ⟨encode utf8 (c :: cs), none⟩ = false := by simp [FoldStream.atEnd, hend']
      have hx : utf8Extract (encode utf8 (c :: cs)) = .ok (some (c, encode utf8 cs)) := by
        rw [encode_cons]
        exact utf8Extract_utf8 c h1 _
      obtain ⟨e, -, k1, k2, k3, k4⟩ := data c (scalar_le h1)
      have hn' : nextFull ⟨encode utf8 (c :: cs), none⟩ = (if e.full ≠ 0 then do
          let (c, run) ← runNext (0 + e.full)
          .ok (some (c, ⟨encode utf8 cs, run⟩))
        else .ok (some (folded c e, ⟨encode utf8 cs, none⟩))) := by
        rw [nextFull]
        simp only
        rw [hx, ok_bind]
        simp only
        rw [k1, ok_bind]
      rw [List.length_cons] at hn
      by_cases hd : 48 ≤ c ∧ c ≤ 57
      · obtain ⟨m, rest, g1, g2, g3, g4⟩ := digits_spec cs (c - 48) h2
        obtain ⟨d1, d2⟩ := digit_check c (by omega) hd.1
        have e' : tokens fullFold none (c :: cs) = .number m :: tokens fullFold none rest := by
          rw [tokens, if_pos hd, ← g4]
          simp
        rw [e', List.map_cons]
        refine .cons ?_ hend (ih rest (by omega) g1)
        have hl : digitsLoop (encode utf8 (c :: cs)) 0 = (m % 2 ^ 32, encode utf8 rest) := by
          rw [encode_cons, utf8_1 (by omega), List.singleton_append, digitsLoop, b8 (by omega), if_pos hd, ← g3]
          congr 1
          omega
        have hnf : nextFull ⟨encode utf8 (c :: cs), none⟩ = .ok (some (c, ⟨encode utf8 cs, none⟩)) := by
          by_cases h0 : e.full = 0
          · rw [hn', if_neg (by simpa using h0), k2, d2]
          · have h5 := k4 h0
            rw [d1] at h5
            obtain ⟨r1, -, -⟩ := runNext_eq h5
            rw [hn', if_pos h0, Nat.zero_add, r1]
            rfl
        rw [nextHuman, hnf, ok_bind]
        simp only
        rw [if_neg (by omega), hl]
        rfl
      · rw [tokens, if_neg hd]
        simp only [Option.map_none, Option.toList_none, List.nil_append, List.map_append, List.map_map]
        have ih' := ih cs (by omega) h2
        have hm : (fullFold c).map (code ∘ Token.letter) = fullFold c := by
          rw [show code ∘ Token.letter = id from rfl, List.map_id]
        rw [hm]
        have hs : simpleFold c < 48 ∨ 57 < simpleFold c := by
          rcases simpleFold_cases c with h | ⟨h, -⟩
          · rw [h]; omega
          · exact h
        by_cases h0 : e.full = 0
        · rw [k3 h0]
          refine .cons ?_ hend ih'
          rw [nextHuman, hn', if_neg (by simpa using h0), ok_bind]
          simp only
          rw [k2, if_pos hs]
        · have h5 := k4 h0
          rcases fullFold_cases c with g | ⟨g, -, -⟩
          · rw [g] at h5 ⊢
            obtain ⟨r1, -, -⟩ := runNext_eq h5
            refine .cons ?_ hend ih'
            rw [nextHuman, hn', if_pos h0, Nat.zero_add, r1]
            simp only [ok_bind, if_pos hs]
            rfl
          · obtain ⟨x, l, hx⟩ := List.exists_cons_of_ne_nil (fullFold_ne c)
            rw [hx] at h5 g ⊢
            obtain ⟨r1, r2, r3⟩ := runNext_eq h5
            have hx57 := (g x (by simp)).1
            rw [List.cons_append]
            refine .cons (t := ⟨encode utf8 cs, if l = [] then none else some (e.full + 1)⟩) ?_ hend ?_
            · rw [nextHuman, hn', if_pos h0, Nat.zero_add, r1]
              simp only [ok_bind, if_pos (show x < 48 ∨ x > 57 from .inr hx57)]
            · by_cases hl : l = []
              · subst hl
                rw [if_pos rfl]
                exact ih'
              · rw [if_neg hl]
                refine yields_run (fun i c run hr hc => ?_) ih' l _ (r3 hl) (fun y hy => (g y (by simp [hy])).1)
                rw [nextHuman, nextFull]
                simp only
                rw [hr]
                simp only [ok_bind, if_pos (show c < 48 ∨ c > 57 from .inr hc)]

theorem tokens_length (fold : Nat → List Nat) (hf : ∀ c, (fold c).length ≤ 3) : ∀ (cs : List Nat) (p : Option Nat),
    (tokens fold p cs).length ≤ 3 * cs.length + p.toList.length := by
  intro cs
  induction cs with
  | nil => intro p; cases p <;> simp [tokens]
  | cons c cs ih =>
    intro p
    rw [tokens.eq_3, List.length_cons]
    split
    · have := ih (some (10 * p.getD 0 + (c - 48)))
      simp only [Option.toList_some, List.length_singleton] at this
      omega
    · have h1 := ih none
      have h2 := hf c
      simp only [Option.toList_none, List.length_nil] at h1
      simp only [List.length_append, List.length_map]
      have : (p.map Token.number).toList.length = p.toList.length := by cases p <;> rfl
      omega

theorem tokens_length1 : ∀ (cs : List Nat) (p : Option Nat), (tokens (fun c => [simpleFold c]) p cs).length ≤ cs.length + p.toList.length := by
  intro cs
  induction cs with
  | nil => intro p; cases p <;> simp [tokens]
  | cons c cs ih =>
    intro p
    rw [tokens.eq_3, List.length_cons]
    split
    · have := ih (some (10 * p.getD 0 + (c - 48)))
      simp only [Option.toList_some, List.length_singleton] at this
      omega
    · have h1 := ih none
      simp only [Option.toList_none, List.length_nil] at h1
      simp only [List.length_append, List.length_map, List.length_singleton]
      have : (p.map Token.number).toList.length = p.toList.length := by cases p <;> rfl
      omega

end Tm.Uni
