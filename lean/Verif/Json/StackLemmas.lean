import Verif.Json.EventSpec
import Verif.Json.BadLemmas

/-! # The stack of contexts -/

namespace Tm.Json

open Tm Spec

/-! ### The stack as a function of the open brackets -/

/-- Pushing, with memory without a bound. -/
def grow (stack : List Entry) (ctx : Ctx) : List Entry :=
  match stack with
  | [] => [⟨ctx, 1⟩]
  | e :: t => if e.ctx = ctx then (if e.count < 255 then { e with count := e.count + 1 } :: t else ⟨ctx, 1⟩ :: e :: t)
    else ⟨ctx, 1⟩ :: e :: t

/-- The stack that stands for the open brackets. -/
def compress : List Bool → List Entry
  | [] => []
  | o :: p => grow (compress p) (ctxOf o)

theorem push_eq (cap : Nat) (stack : List Entry) (ctx : Ctx) (h : stack.length ≤ cap) :
    pushContext cap stack ctx = if (grow stack ctx).length ≤ cap then some (grow stack ctx) else none := by
  cases stack with
  | nil => simp [pushContext, grow, Nat.lt_iff_add_one_le]
  | cons e t =>
    have ht : t.length + 1 ≤ cap := by simpa using h
    by_cases h1 : e.ctx = ctx
    · by_cases h2 : e.count < 255
      · simp [pushContext, grow, h1, h2, ht]
      · simp [pushContext, grow, h1, h2, Nat.lt_iff_add_one_le]
    · simp [pushContext, grow, h1, Nat.lt_iff_add_one_le]

/-- Entries count brackets, at least one. -/
theorem compress_count : ∀ (p : List Bool) (e : Entry), e ∈ compress p → 1 ≤ e.count
  | [], _, h => by cases h
  | o :: p, e, h => by
    have ih := compress_count p
    unfold compress grow at h
    cases hc : compress p with
    | nil => rw [hc] at h; simp at h; simp [h]
    | cons x t =>
      rw [hc] at h ih
      dsimp only at h
      have hx := ih x (by simp)
      have ht : ∀ y ∈ t, 1 ≤ y.count := fun y hy => ih y (by simp [hy])
      split at h
      · split at h
        · rcases List.mem_cons.mp h with rfl | h
          · simp
          · exact ht _ h
        · rcases List.mem_cons.mp h with rfl | h
          · simp
          · exact ih _ h
      · rcases List.mem_cons.mp h with rfl | h
        · simp
        · exact ih _ h

theorem compress_nil {p : List Bool} (h : compress p = []) : p = [] := by
  cases p with
  | nil => rfl
  | cons o p =>
    unfold compress grow at h
    split at h
    · cases h
    · split at h
      · split at h <;> cases h
      · cases h

theorem top_compress (o : Bool) (p : List Bool) : topContext (compress (o :: p)) = ctxOf o := by
  unfold compress grow
  cases compress p with
  | nil => rfl
  | cons e t =>
    dsimp only
    split
    · split
      · rename_i h _; exact h
      · rfl
    · rfl

theorem ctxOf_inj {o o' : Bool} (h : ctxOf o = ctxOf o') : o = o' := by cases o <;> cases o' <;> first | rfl | cases h

/-- Popping takes the innermost bracket off. -/
theorem pop_compress (o o' : Bool) (p : List Bool) :
    popContext (compress (o :: p)) (ctxOf o') = .ok (if o = o' then some (compress p) else none) := by
  by_cases ho : o = o'
  · subst ho
    rw [if_pos rfl]
    have hcount := compress_count p
    rw [compress]
    generalize compress p = st at hcount
    cases st with
    | nil =>
      unfold popContext grow
      dsimp only
      rw [if_neg (by simp), if_neg (by simp), show assert (decide ((1 : Nat) = 1)) = .ok () from rfl, ok_bind]
    | cons e t =>
      have he := hcount e (by simp)
      by_cases h1 : e.ctx = ctxOf o
      · by_cases h2 : e.count < 255
        · unfold grow
          dsimp only
          rw [if_pos h1, if_pos h2]
          unfold popContext
          dsimp only
          rw [if_neg (by simp [h1]), if_pos (by omega)]
          simp
        · unfold grow
          dsimp only
          rw [if_pos h1, if_neg h2]
          unfold popContext
          dsimp only
          rw [if_neg (by simp), if_neg (by simp), show assert (decide ((1 : Nat) = 1)) = .ok () from rfl, ok_bind]
      · unfold grow
        dsimp only
        rw [if_neg h1]
        unfold popContext
        dsimp only
        rw [if_neg (by simp), if_neg (by simp), show assert (decide ((1 : Nat) = 1)) = .ok () from rfl, ok_bind]
  · rw [if_neg ho]
    have ht := top_compress o p
    unfold popContext
    cases hc : compress (o :: p) with
    | nil => rfl
    | cons e t =>
      rw [hc] at ht
      have ht : e.ctx = ctxOf o := ht
      dsimp only
      rw [if_pos]
      rw [ht]
      exact fun h => ho (ctxOf_inj h)

theorem pop_nil (ctx : Ctx) : popContext [] ctx = .ok none := rfl

/-! ### How many entries are taken -/

theorem compress_run {o : Bool} {p : List Bool} (hp : p.head? ≠ some o) : ∀ n,
    compress (List.replicate n o ++ p) = (if n % 255 = 0 then [] else [⟨ctxOf o, n % 255⟩]) ++
      (List.replicate (n / 255) ⟨ctxOf o, 255⟩ ++ compress p) := by
  have htop : ∀ e t, compress p = e :: t → e.ctx ≠ ctxOf o := by
    intro e t h
    cases p with
    | nil => cases h
    | cons o' p =>
      have := top_compress o' p
      rw [h] at this
      have this : e.ctx = ctxOf o' := this
      rw [this]
      exact fun h => hp (by simp [ctxOf_inj h])
  intro n
  induction n with
  | zero => simp
  | succ n ih =>
    rw [List.replicate_succ, List.cons_append, compress, ih]
    by_cases h0 : n % 255 = 0
    · have h1 : (n + 1) % 255 = 1 := by omega
      have h2 : (n + 1) / 255 = n / 255 := by omega
      rw [if_pos h0, h1, h2, if_neg (by simp), List.nil_append]
      cases hk : n / 255 with
      | zero =>
        simp only [List.replicate_zero, List.nil_append]
        unfold grow
        cases hc : compress p with
        | nil => rfl
        | cons e t =>
          dsimp only
          rw [if_neg (htop e t hc)]
          rfl
      | succ k =>
        rw [List.replicate_succ, List.cons_append]
        unfold grow
        dsimp only
        rw [if_pos rfl, if_neg (by simp)]
        rfl
    · rw [if_neg h0]
      have hlt : n % 255 < 255 := Nat.mod_lt _ (by omega)
      show grow (⟨ctxOf o, n % 255⟩ :: _) _ = _
      unfold grow
      dsimp only
      rw [if_pos rfl, if_pos hlt]
      by_cases h1 : n % 255 = 254
      · have h2 : (n + 1) % 255 = 0 := by omega
        have h3 : (n + 1) / 255 = n / 255 + 1 := by omega
        rw [h2, if_pos rfl, h3, h1, List.replicate_succ]
        rfl
      · have h2 : (n + 1) % 255 = n % 255 + 1 := by omega
        have h3 : (n + 1) / 255 = n / 255 := by omega
        rw [h2, if_neg (by omega), h3]
        rfl

theorem entries_compress {p : List Bool} {k : Nat} (h : Entries p k) : (compress p).length = k := by
  induction h with
  | nil => rfl
  | @run o n p k hp hn _ ih =>
    rw [compress_run hp, List.length_append, List.length_append, List.length_replicate, ih]
    split
    · simp; omega
    · simp; omega

/-- Every nesting takes a number of entries. -/
theorem entries_exists (p : List Bool) : Entries p (compress p).length := by
  have key : ∀ p : List Bool, ∃ k, Entries p k := by
    intro p
    induction p with
    | nil => exact ⟨0, .nil⟩
    | cons o p ih =>
      obtain ⟨k, h⟩ := ih
      by_cases hp : p.head? = some o
      · cases h with
        | nil => cases hp
        | @run o' n p k hp' hn h' =>
          have : o' = o := by
            cases n with
            | zero => omega
            | succ n => simpa [List.replicate_succ] using hp
          subst this
          exact ⟨_, .run (n := n + 1) hp' (by omega) h'⟩
      · exact ⟨_, .run (n := 1) hp (by omega) h⟩
  obtain ⟨k, h⟩ := key p
  rw [entries_compress h]
  exact h

theorem compress_le (p : List Bool) : (compress p).length ≤ p.length := by
  induction p with
  | nil => simp [compress]
  | cons o p ih =>
    unfold compress grow
    cases hc : compress p with
    | nil => simp
    | cons e t =>
      rw [hc] at ih
      dsimp only
      simp at ih
      split
      · split
        · simp; omega
        · simp; omega
      · simp; omega

end Tm.Json
