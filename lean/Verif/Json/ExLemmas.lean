import Verif.Json.Ex
import Verif.Json.TermLemmas
import Verif.Json.CopyLemmas

/-! # Lemmas about the extended tokenizer -/

namespace Tm.Json

open Tm Tm.Json.Spec

theorem memchr_at {u v : List Byte} {c : Byte} (h : c ∉ u) : memchr (u ++ c :: v) c = some u.length := by
  rw [memchr_some]
  refine ⟨by simp, fun n hn e => h ?_⟩
  rw [List.getElem?_append_left hn] at e
  exact List.mem_of_getElem? e

/-- The first `c`. -/
theorem split_first (c : Byte) : ∀ s : List Byte, c ∉ s ∨ ∃ u v, s = u ++ c :: v ∧ c ∉ u
  | [] => Or.inl (by simp)
  | b :: s => by
    by_cases hb : b = c
    · exact Or.inr ⟨[], s, by rw [hb]; rfl, by simp⟩
    · rcases split_first c s with h | ⟨u, v, rfl, h⟩
      · exact Or.inl (by simp [h, Ne.symm hb])
      · exact Or.inr ⟨b :: u, v, rfl, by simp [h, Ne.symm hb]⟩

/-- The default case and those of the other chars that are neither white space nor separators. -/
theorem nextTokenEx_dispatch (f : FlagsEx) (ctx : Ctx) {r : Reader} {a t : List Byte} {c : Byte} (hr : r.rest = a ++ c :: t) (ha : Ws a)
    (h1 : isWs c = false) (h2 : c ≠ 0x3A) (h3 : c ≠ 0x3D) (h4 : c ≠ 0x2C) :
    ∃ r1, nextTokenEx f ctx r = dispatchEx f r1 ctx c ∧ r1 = { r with rest := c :: t, line := r1.line, column := r1.column } := by
  have hs := skipWhitespace_eq hr ha (show NoWs (c :: t) by intro d hd; injection hd with hd; rw [← hd]; exact h1)
  refine ⟨skipWhitespace r, ?_, ?_⟩
  · rw [nextTokenEx, nextLoopEx, hs]
    dsimp only
    rw [if_neg (by rw [Bool.or_eq_true, decide_eq_true_eq, decide_eq_true_eq]; exact fun h => h.elim h2 h3), if_neg h4]
  · rw [← hs]; rfl

/-! ### Raw strings -/

theorem rawLoop_ok : ∀ (n : Nat) (content tail : List Byte) (r : Reader) (k : Nat), content.length < n → ¬ [0x29, 0x22] <:+: content →
    r.rest = content ++ 0x29 :: 0x22 :: tail → r.cur.data.length = k + r.rest.length →
    rawLoop [0x22] n r = .ok (true, { r with cur := { r.cur with size := k + content.length }, rest := tail })
  | 0, _, _, _, _, h, _, _, _ => by omega
  | n + 1, content, tail, r, k, h, hi, hr, hk => by
    rw [rawLoop, hr]
    rcases split_first 0x29 content with h1 | ⟨u, v, rfl, h1⟩
    · rw [memchr_at h1]
      dsimp only
      rw [show content ++ 0x29 :: 0x22 :: tail = (content ++ [0x29]) ++ 0x22 :: tail by simp, show content.length + 1 = (content ++ [(0x29 : Byte)]).length by simp, List.drop_left,
        if_neg (by simp), if_pos (by simp)]
      congr 4
      rw [hr] at hk; simp at hk; simp; omega
    · rw [List.append_assoc, List.cons_append, memchr_at h1]
      dsimp only
      rw [show u ++ 0x29 :: (v ++ 0x29 :: 0x22 :: tail) = (u ++ [0x29]) ++ (v ++ 0x29 :: 0x22 :: tail) by simp, show u.length + 1 = (u ++ [(0x29 : Byte)]).length by simp, List.drop_left,
        if_neg (by simp)]
      have hne : ¬ (([0x22] : List Byte).isPrefixOf (v ++ 0x29 :: 0x22 :: tail) = true) := by
        cases v with
        | nil => simp
        | cons b v =>
          intro hb
          have : b = 0x22 := by simp at hb; exact hb.symm
          exact hi ⟨u, v, by rw [this]; simp⟩
      rw [if_neg hne]
      have := rawLoop_ok n v tail { r with rest := v ++ 0x29 :: 0x22 :: tail } (k + (u.length + 1)) (by simp at h; omega)
        (fun ⟨x, y, e⟩ => hi ⟨u ++ 0x29 :: x, y, by rw [← e]; simp⟩) rfl (by rw [hr] at hk; simp at hk; simp; omega)
      rw [this]
      congr 4
      simp; omega

/-- Text without `*/` and what follows it. -/
theorem blockLoop_ok : ∀ (n : Nat) (content tail : List Byte) (r : Reader), content.length < n → ¬ [0x2A, 0x2F] <:+: content →
    r.rest = content ++ 0x2A :: 0x2F :: tail →
    blockLoop n r = .ok (true, { r with cur := { r.cur with size := r.cur.size + content.length }, rest := tail })
  | 0, _, _, _, h, _, _ => by omega
  | n + 1, content, tail, r, h, hi, hr => by
    rw [blockLoop, hr]
    rcases split_first 0x2A content with h1 | ⟨u, v, rfl, h1⟩
    · rw [memchr_at h1]
      dsimp only
      rw [show content ++ 0x2A :: 0x2F :: tail = (content ++ [0x2A]) ++ 0x2F :: tail by simp, show content.length + 1 = (content ++ [(0x2A : Byte)]).length by simp, List.drop_left]
      dsimp only
      rw [if_pos rfl]
    · rw [List.append_assoc, List.cons_append, memchr_at h1]
      dsimp only
      rw [show u ++ 0x2A :: (v ++ 0x2A :: 0x2F :: tail) = (u ++ [0x2A]) ++ (v ++ 0x2A :: 0x2F :: tail) by simp, show u.length + 1 = (u ++ [(0x2A : Byte)]).length by simp, List.drop_left]
      obtain ⟨b, w, hb⟩ : ∃ b w, v ++ 0x2A :: 0x2F :: tail = b :: w := by
        cases v with
        | nil => exact ⟨_, _, rfl⟩
        | cons b v => exact ⟨_, _, rfl⟩
      have hne : b ≠ 0x2F := by
        cases v with
        | nil => injection hb with hb; rw [← hb]; decide
        | cons c v =>
          injection hb with hb
          intro h2
          exact hi ⟨u, v, by rw [hb, h2]; simp⟩
      have := blockLoop_ok n v tail { r with cur := { r.cur with size := r.cur.size + u.length + 1 }, rest := v ++ 0x2A :: 0x2F :: tail } (by simp at h; omega)
        (fun ⟨x, y, e⟩ => hi ⟨u ++ 0x2A :: x, y, by rw [← e]; simp⟩) rfl
      rw [hb] at this ⊢
      dsimp only
      rw [if_neg hne, this]
      congr 4
      simp; omega

/-! ### Strings in quotation marks of either kind -/

theorem findUnescaped_plain (q : Byte) (content tail : List Byte) (h1 : q ∉ content) (h2 : (0x5C : Byte) ∉ content) :
    findUnescaped (content ++ q :: tail) q = .ok (some content.length) := by
  cases content with
  | nil => rw [List.nil_append, findUnescaped, if_pos rfl]; rfl
  | cons b c =>
    rw [List.cons_append, findUnescaped, if_neg (fun h => h1 (by simp [h])), findLoop]
    have h3 : q ∉ c := fun h => h1 (by simp [h])
    rw [show (b :: (c ++ q :: tail)).drop (0 + 1) = c ++ q :: tail from rfl, memchr_at h3]
    dsimp only
    have : isUnescaped (b :: (c ++ q :: tail)) (0 + 1 + c.length) = true := by
      rw [isUnescaped, show 0 + 1 + c.length = c.length + 1 by omega, slashesBefore, if_neg, decide_eq_true_eq]
      rw [← List.cons_append, List.getElem?_append_left (by simp)]
      intro h
      exact h2 (List.mem_of_getElem? h)
    rw [if_pos this]
    simp; omega

theorem validLoop_plain (q : Byte) : ∀ (content tail : List Byte) (fuel : Nat), content.length < fuel → (∀ b ∈ content, 0x20 ≤ b.toNat) → (0x5C : Byte) ∉ content →
    validLoop q fuel (content ++ tail) content.length = .ok true
  | [], tail, fuel + 1, _, _, _ => by rw [validLoop.eq_def]; rfl
  | b :: c, tail, fuel + 1, h, h1, h2 => by
    rw [List.cons_append, List.length_cons, validLoop.eq_def]
    dsimp only
    rw [if_neg (by have := h1 b (by simp); omega), if_neg (fun hb => h2 (by simp [hb]))]
    exact validLoop_plain q c tail fuel (by simp at h; omega) (fun x hx => h1 x (by simp [hx])) (fun hx => h2 (List.mem_cons_of_mem _ hx))

theorem readQuoted_plain {r : Reader} {q : Byte} {content tail : List Byte} (hq : q = 0x22 ∨ q = 0x27) (hr : r.rest = q :: (content ++ q :: tail))
    (h1 : q ∉ content) (h2 : (0x5C : Byte) ∉ content) (h3 : ∀ b ∈ content, 0x20 ≤ b.toNat) :
    readQuotedString r = .ok (true, { r with rest := tail, cur := ⟨false, content ++ q :: tail, content.length⟩, column := r.column + content.length + 1 }) := by
  unfold readQuotedString
  rw [hr]
  dsimp only
  rw [show assert (decide (q = 0x27) || decide (q = 0x22)) = .ok () by rcases hq with rfl | rfl <;> rfl, ok_bind,
    findUnescaped_plain q content tail h1 h2, ok_bind]
  dsimp only
  rw [validLoop_plain q content (q :: tail) _ (by omega) h3 h2, ok_bind, if_pos rfl,
    show content ++ q :: tail = (content ++ [q]) ++ tail by simp, show content.length + 1 = (content ++ [q]).length by simp, List.drop_left]

end Tm.Json
