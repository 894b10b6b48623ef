import Verif.File.CommandLine
import Verif.File.Utf8Props
import Verif.Uni.Props

/-! The command line as UTF-8. -/

namespace Tm.File

open Tm.Uni (utf8FromUtf16Ex Unit16 WellFormed Scalars Scalar encode)

/-- In the memory there is a terminated string at this place. -/
def StringAt (mem : List Byte) (p : Nat) (t : List Byte) : Prop := 0 ∉ t ∧ t ++ [0] <+: mem.drop p

/-- The strings of the pool, each with its terminator. -/
def flat (ts : List (List Byte)) : List Byte := ts.flatMap (· ++ [0])

/-- Where the strings begin. -/
def starts (c : Nat) : List (List Byte) → List Nat
  | [] => []
  | t :: ts => c :: starts (c + (t.length + 1)) ts

theorem starts_length : ∀ (ts : List (List Byte)) (c : Nat), (starts c ts).length = ts.length
  | [], _ => rfl
  | t :: ts, c => by rw [starts, List.length_cons, List.length_cons, starts_length ts]

theorem flat_cons (t : List Byte) (ts : List (List Byte)) : flat (t :: ts) = t ++ [0] ++ flat ts := by simp [flat]

theorem starts_spec : ∀ (ts : List (List Byte)) (P R : List Byte) (i : Nat) (t : List Byte), ts[i]? = some t →
    ∃ p, (starts P.length ts)[i]? = some p ∧ t ++ [0] <+: (P ++ flat ts ++ R).drop p
  | [], _, _, _, _, h => by simp at h
  | t :: ts, P, R, i, u, h => by
    cases i with
    | zero =>
      simp only [List.getElem?_cons_zero, Option.some.injEq] at h
      subst h
      refine ⟨P.length, by rw [starts]; rfl, ?_⟩
      rw [List.append_assoc, List.drop_left, flat_cons, List.append_assoc]
      exact ⟨_, rfl⟩
    | succ i =>
      rw [List.getElem?_cons_succ] at h
      obtain ⟨p, h1, h2⟩ := starts_spec ts (P ++ (t ++ [0])) R i u h
      refine ⟨p, ?_, ?_⟩
      · rw [starts, List.getElem?_cons_succ]
        rw [show P.length + (t.length + 1) = (P ++ (t ++ [0])).length by simp]; exact h1
      · rw [flat_cons, ← List.append_assoc P]; exact h2

/-- The text of an argument. -/
def Means (a : List Unit16) (t : List Byte) : Prop := ∃ cs, Scalars cs ∧ a = encode Uni.utf16 cs ∧ t = encode Uni.utf8 cs

theorem means_fits {a : List Unit16} {t : List Byte} (h : Means a t) (out : List Byte) (hl : t.length + 1 ≤ out.length) :
    utf8FromUtf16Ex a.length a .error [] true out = .ok (⟨t.length, .ok, false⟩, t ++ [0] ++ out.drop (t.length + 1)) := by
  obtain ⟨cs, hcs, rfl, rfl⟩ := h
  have := Uni.C37_utf8_from_utf16 cs hcs .error [] (by intro h; cases h) true out _ (Nat.le_refl _) (by simpa using hl)
  rw [this]
  simp [Num.splice]

theorem means_size {a : List Unit16} {t : List Byte} (h : Means a t) : ∃ o, utf8FromUtf16Ex a.length a .error [] true [] = .ok (⟨t.length + 1, .erange, false⟩, o) := by
  obtain ⟨cs, hcs, rfl, rfl⟩ := h
  obtain ⟨o, h1, _⟩ := (Uni.utf8FromUtf16Ex_reads (Uni.reads_encode Uni.ext16 Uni.form16 false cs hcs) .error (by simp) [] (by intro h; cases h) true [] _ (Nat.le_refl _)).2
    (by simp [Uni.terminator, Uni.utf8_zero])
  refine ⟨o, ?_⟩
  rw [h1]; simp [Uni.terminator, Uni.utf8_zero]

theorem flat_length : ∀ ts : List (List Byte), (flat ts).length = (ts.map fun t => t.length + 1).sum
  | [] => rfl
  | t :: ts => by rw [flat_cons, List.length_append, List.map_cons, List.sum_cons, flat_length ts]; simp

/-- The arguments and their texts. -/
inductive Texts : List (List Unit16) → List (List Byte) → Prop
  | nil : Texts [] []
  | cons {a t as ts} : Means a t → Texts as ts → Texts (a :: as) (t :: ts)

theorem Texts.length {as : List (List Unit16)} {ts : List (List Byte)} (h : Texts as ts) : ts.length = as.length := by
  induction h with
  | nil => rfl
  | cons _ _ ih => simp [ih]

theorem Texts.get {as : List (List Unit16)} {ts : List (List Byte)} (h : Texts as ts) : ∀ (i : Nat) (a : List Unit16), as[i]? = some a → ∃ t, ts[i]? = some t ∧ Means a t := by
  induction h with
  | nil => intro i a h; simp at h
  | @cons a t as ts h1 _ ih =>
    intro i b hb
    cases i with
    | zero => simp only [List.getElem?_cons_zero, Option.some.injEq] at hb; subst hb; exact ⟨t, rfl, h1⟩
    | succ i => rw [List.getElem?_cons_succ] at hb ⊢; exact ih i b hb

theorem texts_of : ∀ as : List (List Unit16), (∀ a ∈ as, WellFormed Uni.utf16 a) → ∃ ts, Texts as ts
  | [], _ => ⟨[], .nil⟩
  | a :: as, h => by
    obtain ⟨cs, h1, h2⟩ := h a (by simp)
    obtain ⟨ts, h3⟩ := texts_of as fun b hb => h b (by simp [hb])
    exact ⟨encode Uni.utf8 cs :: ts, .cons ⟨cs, h1, h2, rfl⟩ h3⟩

theorem lineSize_texts {as : List (List Unit16)} {ts : List (List Byte)} (h : Texts as ts) : ∀ n, lineSize as n = .ok (n + (flat ts).length, .ok) := by
  induction h with
  | nil => intro n; rfl
  | cons h1 _ ih =>
    intro n
    obtain ⟨o, h2⟩ := means_size h1
    rw [lineSize, h2, ok_bind]
    dsimp only
    rw [if_neg (by simp), ih, flat_cons]
    simp; omega

theorem lineSize_ill : ∀ (as : List (List Unit16)) (n : Nat), (∃ a ∈ as, ¬ WellFormed Uni.utf16 a) → ∃ m, lineSize as n = .ok (m, .einval)
  | [], _, h => by obtain ⟨a, h, _⟩ := h; cases h
  | a :: as, n, h => by
    by_cases ha : WellFormed Uni.utf16 a
    · obtain ⟨cs, h1, h2⟩ := ha
      obtain ⟨o, h3⟩ := means_size ⟨cs, h1, h2, rfl⟩
      obtain ⟨b, hb, hb'⟩ := h
      rcases List.mem_cons.1 hb with rfl | hb
      · exact absurd ⟨cs, h1, h2⟩ hb'
      · obtain ⟨m, hm⟩ := lineSize_ill as (n + ((encode Uni.utf8 cs).length + 1)) ⟨b, hb, hb'⟩
        refine ⟨m, ?_⟩
        rw [lineSize, h3, ok_bind]
        dsimp only
        rw [if_neg (by simp), hm]
    · obtain ⟨k, o, h1, _⟩ := Uni.C38_ill_formed_utf16 a ha [] true [] _ (Nat.le_refl _)
      refine ⟨n, ?_⟩
      rw [lineSize, h1, ok_bind]
      dsimp only
      rw [if_pos (by simp)]

theorem wr_mid {α : Type} (A B : List α) (b v : α) : wr (A ++ b :: B) A.length v = .ok (A ++ v :: B) := by
  rw [wr, if_pos (by simp)]; simp

theorem lineLoop_texts {as : List (List Unit16)} {ts : List (List Byte)} (h : Texts as ts) : ∀ (A B : List (Option Nat)) (P Q : List Byte), ts.length ≤ B.length → (flat ts).length < Q.length →
    ∃ B' Q', lineLoop as ⟨A ++ B, A.length, P ++ Q, P.length, Q.length⟩ =
        .ok (.ok, ⟨(A ++ (starts P.length ts).map some) ++ B', (A ++ (starts P.length ts).map some).length, (P ++ flat ts) ++ Q', (P ++ flat ts).length, Q'.length⟩) ∧
      B'.length + ts.length = B.length ∧ Q'.length + (flat ts).length = Q.length := by
  induction h with
  | nil => intro A B P Q _ _; exact ⟨B, Q, by simp [lineLoop, starts, flat], by simp, by simp [flat]⟩
  | @cons a t as ts h1 _ ih =>
    intro A B P Q hB hQ
    rw [flat_cons] at hQ
    simp only [List.length_append, List.length_cons, List.length_nil] at hQ
    obtain ⟨b, B, rfl⟩ : ∃ b B', B = b :: B' := by
      cases B with
      | nil => simp at hB
      | cons b B => exact ⟨b, B, rfl⟩
    rw [lineLoop]
    dsimp only
    rw [List.drop_left, List.take_length, means_fits h1 Q (by omega), ok_bind]
    dsimp only
    rw [if_neg (by simp), List.take_left, show (P ++ Q).drop (P.length + Q.length) = [] from List.drop_eq_nil_of_le (by simp), List.append_nil, wr_mid, ok_bind, assert, if_pos (by rw [decide_eq_true_eq]; omega), ok_bind, if_neg (by omega)]
    obtain ⟨B', Q', h2, h3, h4⟩ := ih (A ++ [some P.length]) B (P ++ (t ++ [0])) (Q.drop (t.length + 1)) (by simpa using hB) (by rw [List.length_drop]; omega)
    refine ⟨B', Q', ?_, by simp; omega, by rw [List.length_drop] at h4; rw [flat_cons]; simp; omega⟩
    have e : (⟨A ++ some P.length :: B, A.length + 1, P ++ (t ++ [0] ++ Q.drop (t.length + 1)), P.length + (t.length + 1), Q.length - (t.length + 1)⟩ : LineState) =
        ⟨A ++ [some P.length] ++ B, (A ++ [some P.length]).length, P ++ (t ++ [0]) ++ Q.drop (t.length + 1), (P ++ (t ++ [0])).length, (Q.drop (t.length + 1)).length⟩ := by simp
    rw [e, h2, flat_cons, starts]
    simp [Nat.add_assoc]

theorem lineFill_texts {as : List (List Unit16)} {ts : List (List Byte)} (h : Texts as ts) (ptr : Nat) (junk : Byte) :
    ∃ s, lineFill ptr as ((as.length + 1) * ptr + (flat ts).length + 1) junk = .ok (.ok, s) ∧ s.args = (starts 0 ts).map some ++ [some (flat ts).length] ∧ s.pool = flat ts ++ [0] := by
  have e : (as.length + 1) * ptr + (flat ts).length + 1 - (as.length + 1) * ptr = (flat ts).length + 1 := by omega
  obtain ⟨B', Q', h1, h2, h3⟩ := lineLoop_texts h [] (List.replicate (as.length + 1) none) [] (List.replicate ((flat ts).length + 1) junk) (by rw [List.length_replicate, h.length]; omega)
    (by rw [List.length_replicate]; omega)
  rw [List.length_replicate] at h1 h2 h3
  have hl := h.length
  obtain ⟨b, rfl⟩ : ∃ b, B' = [b] := List.length_eq_one_iff.1 (by omega)
  obtain ⟨q, rfl⟩ : ∃ q, Q' = [q] := List.length_eq_one_iff.1 (by omega)
  rw [lineFill]
  dsimp only
  rw [e, assert, if_pos (by simp), ok_bind]
  simp only [List.nil_append, List.length_nil] at h1
  rw [h1, ok_bind]
  dsimp only
  rw [if_pos rfl, lineEnd]
  dsimp only
  rw [if_neg (by simp), wr_mid, ok_bind, wr_mid, ok_bind, assert, if_pos (by simp), ok_bind]
  exact ⟨_, rfl, rfl, rfl⟩

theorem utf8_ne_zero {c : Nat} (hc : Scalar c) (h : c ≠ 0) : 0 ∉ Uni.utf8 c := by
  intro h0
  rw [Uni.utf8] at h0
  have : c < 0x110000 := by rw [Scalar] at hc; omega
  have key : ∀ n : Nat, (0 : Byte) = BitVec.ofNat 8 n → n % 256 = 0 := by
    intro n hn
    have := congrArg BitVec.toNat hn
    simp at this; omega
  (repeat' split at h0) <;> simp only [List.mem_cons, List.not_mem_nil, or_false] at h0
  · have := key _ h0; omega
  · rcases h0 with h0 | h0 <;> have := key _ h0 <;> omega
  · rcases h0 with h0 | h0 | h0 <;> have := key _ h0 <;> omega
  · rcases h0 with h0 | h0 | h0 | h0 <;> have := key _ h0 <;> omega

theorem means_zero {a : List Unit16} {t : List Byte} (h : Means a t) (h0 : 0 ∉ a) : 0 ∉ t := by
  obtain ⟨cs, hcs, rfl, rfl⟩ := h
  intro ht
  obtain ⟨c, hc, h1⟩ := List.mem_flatMap.1 ht
  by_cases hz : c = 0
  · subst hz
    exact h0 (List.mem_flatMap.2 ⟨0, hc, by simp [Uni.utf16_zero]⟩)
  · exact utf8_ne_zero (hcs c hc) hz h1

/-- Part of C230: the arguments, which have no zeros in them since they are terminated, become UTF-8. Whatever the allocator does, the function is defined. If
it succeeds, there is a pointer to a terminated string for every argument, and the string is the UTF-8 encoding of the text of the argument, and one more
pointer. If an argument is not well-formed UTF-16 the result is `TM_EINVAL`, and otherwise it fails only for want of memory. Destroying the result gives back
what was allocated. Missing: the last pointer is not null, as the documentation says, but leads to an empty string. -/
theorem C230_text_partial (ptr : Nat) (args : List (List Unit16)) (h0 : ∀ a ∈ args, 0 ∉ a) (w : World) :
    ∃ r w', commandLine ptr args w = .ok (r, w') ∧
      (∃ w'', destroyCommandLine r.line w' = .ok (⟨[], 0, none, 0, []⟩, w'') ∧ w''.blocks = w.blocks) ∧
      (r.ec = .ok → r.line.count = args.length ∧ r.line.args.length = args.length + 1 ∧
        (∀ (i : Nat) (a : List Unit16), args[i]? = some a → ∃ cs p, Scalars cs ∧ a = encode Uni.utf16 cs ∧ r.line.args[i]? = some (some p) ∧ StringAt r.line.pool p (encode Uni.utf8 cs)) ∧
        ∃ p, r.line.args[args.length]? = some (some p) ∧ StringAt r.line.pool p []) ∧
      (r.ec ≠ .ok → r.line = ⟨[], 0, none, 0, []⟩) ∧
      (r.ec = .einval ↔ ∃ a ∈ args, ¬ WellFormed Uni.utf16 a) ∧ (r.ec = .ok ∨ r.ec = .einval ∨ (r.ec = .enomem ∧ false ∈ w.allocs)) := by
  by_cases hill : ∃ a ∈ args, ¬ WellFormed Uni.utf16 a
  · obtain ⟨m, hm⟩ := lineSize_ill args ((args.length + 1) * ptr) hill
    refine ⟨⟨⟨[], 0, none, 0, []⟩, .einval⟩, w, ?_, ⟨w, rfl, rfl⟩, by simp, by simp, by simpa using hill, by simp⟩
    rw [commandLine, hm, ok_bind]
    dsimp only
    rw [if_pos (by simp)]
  · obtain ⟨ts, hts⟩ := texts_of args fun a ha => Classical.byContradiction fun h => hill ⟨a, ha, h⟩
    have hs := lineSize_texts hts ((args.length + 1) * ptr)
    rw [commandLine, hs, ok_bind]
    dsimp only
    rw [if_neg (by simp), malloc]
    by_cases hal : w.allocs.headD true = true
    · rw [if_pos hal]
      obtain ⟨s, h1, h2, h3⟩ := lineFill_texts hts ptr w.junk
      dsimp only
      rw [h1, ok_bind]
      dsimp only
      rw [if_pos rfl]
      refine ⟨_, _, rfl, ⟨{ w with allocs := w.allocs.tail, next := w.next + 1 }, ?_, rfl⟩, ?_, by simp, by simpa using fun x hx => Classical.byContradiction fun h => hill ⟨x, hx, h⟩, Or.inl rfl⟩
      · rw [destroyCommandLine]
        dsimp only
        rw [assert, if_pos (by simp), ok_bind, free, if_pos (by simp), ok_bind]
        simp
      · intro _
        dsimp only
        rw [h2, h3]
        have hl := hts.length
        refine ⟨rfl, by simp [starts_length, hl], ?_, ⟨(flat ts).length, ?_, by simp, ?_⟩⟩
        · intro i a ha
          obtain ⟨t, ht, hm⟩ := hts.get i a ha
          have hz := means_zero hm (h0 a (List.mem_of_getElem? ha))
          obtain ⟨cs, hcs, he, rfl⟩ := hm
          obtain ⟨p, hp, hp2⟩ := starts_spec ts [] [0] i _ ht
          refine ⟨cs, p, hcs, he, ?_, hz, by simpa using hp2⟩
          have hi : i < (starts 0 ts).length := (List.getElem?_eq_some_iff.1 hp).1
          rw [List.getElem?_append_left (by simpa using hi), List.getElem?_map, show starts 0 ts = starts ([] : List Byte).length ts from rfl, hp]; rfl
        · rw [List.getElem?_append_right (by simp [starts_length, hl])]
          simp [starts_length, hl]
        · rw [List.drop_left]; exact ⟨[], rfl⟩
    · rw [if_neg hal]
      have hf : false ∈ w.allocs := by
        cases hw : w.allocs with
        | nil => rw [hw] at hal; simp at hal
        | cons b l => rw [hw] at hal; simp at hal; simp [hal]
      exact ⟨_, _, rfl, ⟨_, rfl, rfl⟩, by simp, by simp, by simpa using fun x hx => Classical.byContradiction fun h => hill ⟨x, hx, h⟩, Or.inr (Or.inr ⟨rfl, hf⟩)⟩

/-- C230 fails for every command line: `args[args_count]` is not null, although the documentation guarantees it. -/
theorem C230_not_null (ptr : Nat) (args : List (List Unit16)) (h0 : ∀ a ∈ args, 0 ∉ a) (w w' : World) (r : CommandLineResult) (h : commandLine ptr args w = .ok (r, w')) (hr : r.ec = .ok) :
    r.line.args[r.line.count]? ≠ some none := by
  obtain ⟨r', w'', h1, _, h2, _⟩ := C230_text_partial ptr args h0 w
  rw [h1] at h
  injection h with h; injection h with h _; subst h
  obtain ⟨h3, _, _, p, h4, _⟩ := h2 hr
  rw [h3, h4]; simp

/-- Two arguments: `a` and a smiling face. -/
example : ∃ w', commandLine 8 [[0x61], [0xD83D, 0xDE00]] demo = .ok (⟨⟨[some 0, some 2, some 7], 2, some 1, 32, [0x61, 0, 0xF0, 0x9F, 0x98, 0x80, 0, 0]⟩, .ok⟩, w') :=
  ⟨(match commandLine 8 [[0x61], [0xD83D, 0xDE00]] demo with | .ok (_, w') => w' | .error _ => demo), by rfl⟩

end Tm.File
