import Verif.Json.TokLemmas

/-! # Skipping and counting, without extensions -/

namespace Tm.Json

open Tm Spec

/-! ### White space -/

theorem skipLoop_ws {a : List Byte} (ha : Ws a) (k : List Byte) : ∀ l c, ∃ l' c', skipLoop (a ++ k) l c = skipLoop k l' c' := by
  induction a with
  | nil => exact fun l c => ⟨l, c, rfl⟩
  | cons b t ih =>
    intro l c
    have hb : isWs b = true := isWs_iff.2 (ha b (by simp))
    have ht : Ws t := fun x hx => ha x (by simp [hx])
    rw [List.cons_append, skipLoop, if_pos hb]
    by_cases h : b = 0x0A
    · rw [if_pos h]; exact ih ht _ _
    · rw [if_neg h]; exact ih ht _ _

/-! ### The scan for the closing bracket -/

/-- The loop that looks for the closing bracket goes over `w`, and is then at the same depth. -/
def Skips (ctx : Ctx) (isObj : Bool) (w : List Byte) : Prop :=
  ∀ (n d : Nat) (r : Reader) (k : List Byte), 1 ≤ d → k ≠ [] → r.rest = w ++ k → r.rest.length < n →
    ∃ n' r', bracketLoop ctx isObj n d r = bracketLoop ctx isObj n' d r' ∧ r'.rest = k ∧ Core r r' ∧ k.length < n'

variable {ctx : Ctx} {isObj : Bool}

theorem skips_nil : Skips ctx isObj [] := fun n _ r _ _ _ hr hn => ⟨n, r, rfl, hr, Core.refl r, by rw [hr] at hn; exact hn⟩

theorem Skips.append {v w : List Byte} (hv : Skips ctx isObj v) (hw : Skips ctx isObj w) : Skips ctx isObj (v ++ w) := by
  intro n d r k hd hk hr hn
  obtain ⟨n1, r1, e1, h1, c1, l1⟩ := hv n d r (w ++ k) hd (by simp [hk]) (by rw [hr, List.append_assoc]) hn
  obtain ⟨n2, r2, e2, h2, c2, l2⟩ := hw n1 d r1 k hd hk h1 (by rw [h1]; exact l1)
  exact ⟨n2, r2, e1.trans e2, h2, c1.trans c2, l2⟩

theorem Skips.ws {a : List Byte} (ha : Ws a) : Skips ctx isObj a := by
  intro n d r k _ hk hr hn
  obtain ⟨l, c, e⟩ := skipLoop_ws ha k r.line r.column
  refine ⟨n, { r with rest := k, line := l, column := c }, ?_, rfl, ⟨rfl, rfl, rfl⟩, ?_⟩
  · cases n with
    | zero => rfl
    | succ n =>
      have : skipWhitespace r = skipWhitespace { r with rest := k, line := l, column := c } := by
        simp only [skipWhitespace, hr, e]
      rw [bracketLoop, bracketLoop, if_neg (by rw [hr]; simp [hk]), if_neg hk, this]
  · rw [hr, List.length_append] at hn; omega

/-- One step of the loop. -/
theorem bracket_step {n d : Nat} {r : Reader} {c : Byte} {t : List Byte} (hr : r.rest = c :: t) (hc : isWs c = false) :
    bracketLoop ctx isObj (n + 1) d r =
      (let r' := { skipWhitespace r with rest := t, column := (skipWhitespace r).column + 1 }
       if c = (if isObj then 0x7B else 0x5B) then bracketLoop ctx isObj n (d + 1) r'
       else if c = (if isObj then 0x7D else 0x5D) then
         if d - 1 = 0 then .ok (true, { r' with last := if isObj then .objEnd else .arrEnd })
         else bracketLoop ctx isObj n (d - 1) r'
       else if c = 0x22 then do
         let x ← readQuotedString { skipWhitespace r with column := (skipWhitespace r).column + 1 }
         if x.1 then bracketLoop ctx isObj n d x.2 else .ok (false, x.2)
       else bracketLoop ctx isObj n d r') := by
  have h1 : (skipWhitespace r).rest = c :: t :=
    skipWhitespace_eq (a := []) hr (by intro b hb; cases hb) (by intro x hx; simp at hx; exact hx ▸ hc)
  rw [bracketLoop, if_neg (by rw [hr]; simp)]
  dsimp only
  rw [h1]

theorem Skips.char {c : Byte} (h0 : isWs c = false) (h1 : c ≠ (if isObj then 0x7B else 0x5B))
    (h2 : c ≠ (if isObj then 0x7D else 0x5D)) (h3 : c ≠ 0x22) : Skips ctx isObj [c] := by
  intro n d r k _ _ hr hn
  cases n with
  | zero => omega
  | succ n =>
    rw [bracket_step (t := k) hr h0]
    dsimp only
    rw [if_neg h1, if_neg h2, if_neg h3]
    refine ⟨n, _, rfl, rfl, ⟨rfl, rfl, rfl⟩, ?_⟩
    rw [hr] at hn
    simp at hn
    omega

theorem Skips.chars {w : List Byte} (h : ∀ c ∈ w, isWs c = false ∧ c ≠ 0x7B ∧ c ≠ 0x5B ∧ c ≠ 0x7D ∧ c ≠ 0x5D ∧ c ≠ 0x22) :
    Skips ctx isObj w := by
  induction w with
  | nil => exact skips_nil
  | cons c t ih =>
    obtain ⟨h0, h1, h2, h3, h4, h5⟩ := h c (by simp)
    have : Skips ctx isObj [c] := Skips.char h0 (by cases isObj <;> simpa) (by cases isObj <;> simpa) h5
    exact this.append (ih fun x hx => h x (by simp [hx]))

theorem Skips.quoted {raw text : List Byte} (hb : Body raw text) : Skips ctx isObj (quoted raw) := by
  intro n d r k _ _ hr hn
  cases n with
  | zero => omega
  | succ n =>
    have hr' : r.rest = 0x22 :: (raw ++ 0x22 :: k) := by rw [hr]; simp [Spec.quoted, chr]
    rw [bracket_step hr' rfl]
    dsimp only
    rw [if_neg (by cases isObj <;> decide), if_neg (by cases isObj <;> decide), if_pos rfl]
    have h1 : (skipWhitespace r).rest = r.rest := by
      rw [hr']
      exact skipWhitespace_eq (a := []) hr' (by intro b hb; cases hb) (by intro x hx; simp at hx; exact hx ▸ rfl)
    rw [readQuoted_ok (r := { skipWhitespace r with column := (skipWhitespace r).column + 1 }) (raw := raw) (k := k)
      (by dsimp only; rw [h1, hr]) hb, ok_bind]
    dsimp only
    rw [if_pos rfl]
    refine ⟨n, _, rfl, rfl, ⟨rfl, rfl, rfl⟩, ?_⟩
    rw [hr'] at hn
    simp at hn
    omega

theorem Skips.brackets {w : List Byte} (isObj' : Bool) (hw : Skips ctx isObj w) :
    Skips ctx isObj ((if isObj' then 0x7B else 0x5B) :: (w ++ [if isObj' then 0x7D else 0x5D])) := by
  by_cases h : isObj' = isObj
  · subst h
    intro n d r k hd hk hr hn
    cases n with
    | zero => omega
    | succ n =>
      have hr' : r.rest = (if isObj' then 0x7B else 0x5B) :: (w ++ ((if isObj' then 0x7D else 0x5D) :: k)) := by rw [hr]; simp
      rw [bracket_step hr' (by cases isObj' <;> rfl)]
      dsimp only
      rw [if_pos rfl]
      obtain ⟨n1, r1, e1, h1, c1, l1⟩ := hw n (d + 1) { skipWhitespace r with
        rest := w ++ ((if isObj' then 0x7D else 0x5D) :: k), column := (skipWhitespace r).column + 1 } _ (by omega) (by simp) rfl
        (by rw [hr'] at hn; simp at hn ⊢; omega)
      rw [e1]
      cases n1 with
      | zero => omega
      | succ n1 =>
        rw [bracket_step h1 (by cases isObj' <;> rfl)]
        dsimp only
        rw [if_neg (by cases isObj' <;> decide), if_pos rfl, if_neg (by omega), show d + 1 - 1 = d by omega]
        refine ⟨n1, _, rfl, rfl, { err := c1.err, root := c1.root, last := c1.last }, ?_⟩
        simp at l1
        omega
  · have h1 : Skips ctx isObj [if isObj' then 0x7B else 0x5B] := by
      apply Skips.char <;> revert h <;> cases isObj' <;> cases isObj <;> decide
    have h2 : Skips ctx isObj [if isObj' then 0x7D else 0x5D] := by
      apply Skips.char <;> revert h <;> cases isObj' <;> cases isObj <;> decide
    exact h1.append (hw.append h2)

/-- The characters of numbers and keywords are no brackets. -/
theorem skips_number {m i f e : List Byte} (h : Number m i f e) : Skips ctx isObj (m ++ i ++ f ++ e) := by
  apply Skips.chars
  have hd : ∀ c : Byte, Digit c → isWs c = false ∧ c ≠ 0x7B ∧ c ≠ 0x5B ∧ c ≠ 0x7D ∧ c ≠ 0x5D ∧ c ≠ 0x22 := by decide +kernel
  obtain ⟨hm, hi, hf, he⟩ := h
  intro c hc
  simp only [List.mem_append] at hc
  rcases hc with ((hc | hc) | hc) | hc
  · rcases hm with rfl | rfl
    · cases hc
    · simp at hc; subst hc; decide
  · rcases hi with rfl | ⟨h, _⟩
    · simp at hc; subst hc; decide
    · exact hd c (h.2 c hc)
  · rcases hf with rfl | ⟨d, h, rfl⟩
    · cases hc
    · simp at hc
      rcases hc with rfl | hc
      · decide
      · exact hd c (h.2 c hc)
  · rcases he with rfl | ⟨x, sign, d, hx, hs, h, rfl⟩
    · cases hc
    · simp at hc
      rcases hc with rfl | hc | hc
      · rcases hx with rfl | rfl <;> decide
      · rcases hs with rfl | rfl | rfl
        · cases hc
        · simp at hc; subst hc; decide
        · simp at hc; subst hc; decide
      · exact hd c (h.2 c hc)

variable {P Q : List Byte → Prop}

theorem skips_moreValues {n : Nat} (ih : ∀ j v, Value P Q j v → v.length < n → Skips ctx isObj v) :
    ∀ js t, MoreValues P Q js t → t.length < n → Skips ctx isObj t := by
  intro js
  induction js with
  | nil => intro t h _; cases h; exact skips_nil
  | cons j js ihjs =>
    intro t h hn
    cases h with
    | cons ha hb hv ht =>
      simp only [List.length_append, List.length_cons] at hn
      refine (Skips.ws ha).append (Skips.append (v := [chr ',']) ?_ ((Skips.ws hb).append ((ih _ _ hv (by omega)).append
        (ihjs _ ht (by omega)))))
      exact Skips.chars (by decide)

theorem skips_member {n : Nat} (ih : ∀ j v, Value P Q j v → v.length < n → Skips ctx isObj v) {m : List Byte × Json} {u : List Byte}
    (h : Member P Q m u) (hn : u.length < n) : Skips ctx isObj u := by
  cases h with
  | mk hb hq ha hc hv =>
    simp only [List.length_append, List.length_cons] at hn
    refine (Skips.quoted hb).append ((Skips.ws ha).append (Skips.append (v := [chr ':']) ?_ ((Skips.ws hc).append
      (ih _ _ hv (by omega)))))
    exact Skips.chars (by decide)

theorem skips_moreMembers {n : Nat} (ih : ∀ j v, Value P Q j v → v.length < n → Skips ctx isObj v) :
    ∀ ms t, MoreMembers P Q ms t → t.length < n → Skips ctx isObj t := by
  intro ms
  induction ms with
  | nil => intro t h _; cases h; exact skips_nil
  | cons m ms ihms =>
    intro t h hn
    cases h with
    | cons ha hb hm ht =>
      simp only [List.length_append, List.length_cons] at hn
      refine (Skips.ws ha).append (Skips.append (v := [chr ',']) ?_ ((Skips.ws hb).append ((skips_member ih hm (by omega)).append
        (ihms _ ht (by omega)))))
      exact Skips.chars (by decide)

theorem skips_value_aux : ∀ (n : Nat) (j : Json) (v : List Byte), Value P Q j v → v.length < n → Skips ctx isObj v := by
  intro n
  induction n with
  | zero => intro _ _ _ h; omega
  | succ n ih =>
    intro j v hv hn
    cases hv with
    | null => exact Skips.chars (by decide)
    | bool b => cases b <;> exact Skips.chars (by decide)
    | num h => exact skips_number h
    | str hb _ => exact Skips.quoted hb
    | arrNil ha => exact Skips.brackets false (Skips.ws ha)
    | @arr a b j v js t ha hv ht hb =>
      simp only [List.length_append, List.length_cons] at hn
      have := Skips.brackets (ctx := ctx) (isObj := isObj) false ((Skips.ws ha).append ((ih _ _ hv (by omega)).append
        ((skips_moreValues ih _ _ ht (by omega)).append (Skips.ws hb))))
      simpa [chr] using this
    | objNil ha => exact Skips.brackets true (Skips.ws ha)
    | @obj a b m u ms t ha hm ht hb =>
      simp only [List.length_append, List.length_cons] at hn
      have := Skips.brackets (ctx := ctx) (isObj := isObj) true ((Skips.ws ha).append ((skips_member ih hm (by omega)).append
        ((skips_moreMembers ih _ _ ht (by omega)).append (Skips.ws hb))))
      simpa [chr] using this

theorem skips_value {j : Json} {v : List Byte} (h : Value P Q j v) : Skips ctx isObj v :=
  skips_value_aux _ j v h (Nat.lt_succ_self _)

/-- The end of the scan. -/
theorem bracket_end {n : Nat} {r : Reader} {w k : List Byte} (hw : Skips ctx isObj w)
    (hr : r.rest = w ++ (if isObj then 0x7D else 0x5D) :: k) (hn : r.rest.length < n) :
    ∃ r', bracketLoop ctx isObj n 1 r = .ok (true, r') ∧ r'.rest = k ∧ r'.last = (if isObj then .objEnd else .arrEnd) ∧
      r'.err = r.err := by
  obtain ⟨n1, r1, e1, h1, c1, l1⟩ := hw n 1 r _ (by omega) (by simp) hr hn
  cases n1 with
  | zero => omega
  | succ n1 =>
    rw [e1, bracket_step h1 (by cases isObj <;> rfl)]
    dsimp only
    rw [if_neg (by cases isObj <;> decide), if_pos rfl, if_pos rfl]
    exact ⟨_, rfl, rfl, rfl, c1.err⟩

end Tm.Json
