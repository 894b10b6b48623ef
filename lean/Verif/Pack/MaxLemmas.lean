import Verif.Pack.MaxChoice

/-! # MaxRects: splitting and pruning the free rectangles -/

namespace Tm.Pack

open Tm

/-- The test of `maxRectsSplitFreeNode`. -/
def clearOf (u f : Rect) : Bool := u.left ≥ f.left + f.width || u.left + u.width ≤ f.left || u.top ≥ f.top + f.height || u.top + u.height ≤ f.top

theorem apart_iff {a b : Rect} (ha : Pos a) (hb : Pos b) :
    Apart a b ↔ (a.left ≥ b.left + b.width ∨ a.left + a.width ≤ b.left ∨ a.top ≥ b.top + b.height ∨ a.top + a.height ≤ b.top) := by
  obtain ⟨a1, a2⟩ := ha
  obtain ⟨b1, b2⟩ := hb
  unfold Apart Covers
  constructor
  · intro h
    by_contra hc
    exact h (max a.left b.left) (max a.top b.top) (by omega)
  · intro h x y hxy
    omega

theorem clearOf_iff {u f : Rect} (hu : Pos u) (hf : Pos f) : clearOf u f = true ↔ Apart u f := by
  rw [apart_iff hu hf]
  unfold clearOf
  simp only [Bool.or_eq_true, decide_eq_true_eq]
  omega

/-- What is left of `f` when `u` is placed. -/
def pieces (f u : Rect) : List Rect :=
  (if u.top > f.top ∧ u.top < f.top + f.height then [{ f with height := u.top - f.top }] else []) ++
  (if u.top + u.height < f.top + f.height then [{ f with top := u.top + u.height, height := f.top + f.height - (u.top + u.height) }] else []) ++
  (if u.left > f.left ∧ u.left < f.left + f.width then [{ f with width := u.left - f.left }] else []) ++
  (if u.left + u.width < f.left + f.width then [{ f with left := u.left + u.width, width := f.left + f.width - (u.left + u.width) }] else [])

theorem mem_pieces {f u x : Rect} : x ∈ pieces f u ↔
    (u.top > f.top ∧ u.top < f.top + f.height ∧ x = { f with height := u.top - f.top }) ∨
    (u.top + u.height < f.top + f.height ∧ x = { f with top := u.top + u.height, height := f.top + f.height - (u.top + u.height) }) ∨
    (u.left > f.left ∧ u.left < f.left + f.width ∧ x = { f with width := u.left - f.left }) ∨
    (u.left + u.width < f.left + f.width ∧ x = { f with left := u.left + u.width, width := f.left + f.width - (u.left + u.width) }) := by
  unfold pieces
  rw [List.mem_append, List.mem_append, List.mem_append]
  have key : ∀ (P : Prop) [Decidable P] (y : Rect), x ∈ (if P then [y] else []) ↔ P ∧ x = y := by
    intro P _ y
    by_cases h : P
    · rw [if_pos h]; simp [h]
    · rw [if_neg h]; simp [h]
  rw [key, key, key, key]
  tauto

theorem pieces_good {f u x : Rect} (hf : Pos f) (hu : Pos u) (hov : ¬ Apart u f) (hx : x ∈ pieces f u) : Pos x ∧ Within x f ∧ Apart u x := by
  rw [apart_iff hu hf] at hov
  rw [mem_pieces] at hx
  have hp : Pos x ∧ Within x f := by
    unfold Pos Within at *
    rcases hx with ⟨h1, h2, rfl⟩ | ⟨h1, rfl⟩ | ⟨h1, h2, rfl⟩ | ⟨h1, rfl⟩ <;> dsimp only <;> omega
  refine ⟨hp.1, hp.2, (apart_iff hu hp.1).mpr ?_⟩
  rcases hx with ⟨h1, h2, rfl⟩ | ⟨h1, rfl⟩ | ⟨h1, h2, rfl⟩ | ⟨h1, rfl⟩ <;> dsimp only <;> omega

theorem pieces_complete {f u q : Rect} (hq : Pos q) (hu : Pos u) (hf : Pos f) (hov : ¬ Apart u f) (hqf : Within q f) (hqu : Apart q u) :
    ∃ x ∈ pieces f u, Within q x := by
  rw [apart_iff hu hf] at hov
  rw [apart_iff hq hu] at hqu
  obtain ⟨q1, q2⟩ := hq
  unfold Within at hqf
  rcases hqu with h | h | h | h
  · refine ⟨_, mem_pieces.mpr (.inr (.inr (.inr ⟨?_, rfl⟩))), ?_⟩
    · omega
    · unfold Within; dsimp only; omega
  · refine ⟨_, mem_pieces.mpr (.inr (.inr (.inl ⟨?_, ?_, rfl⟩))), ?_⟩
    · omega
    · omega
    · unfold Within; dsimp only; omega
  · refine ⟨_, mem_pieces.mpr (.inr (.inl ⟨?_, rfl⟩)), ?_⟩
    · omega
    · unfold Within; dsimp only; omega
  · refine ⟨_, mem_pieces.mpr (.inl ⟨?_, ?_, rfl⟩), ?_⟩
    · omega
    · omega
    · unfold Within; dsimp only; omega

theorem pieces_ne_nil {f u : Rect} (hf : Pos f) (hu : Pos u) (hov : ¬ Apart u f) (h : ¬ Within f u) : pieces f u ≠ [] := by
  rw [apart_iff hu hf] at hov
  intro he
  have hn : ∀ x, x ∉ pieces f u := by rw [he]; simp
  have h1 := hn { f with height := u.top - f.top }
  have h2 := hn { f with top := u.top + u.height, height := f.top + f.height - (u.top + u.height) }
  have h3 := hn { f with width := u.left - f.left }
  have h4 := hn { f with left := u.left + u.width, width := f.left + f.width - (u.left + u.width) }
  rw [mem_pieces] at h1 h2 h3 h4
  unfold Within at h
  refine h ⟨?_, ?_, ?_, ?_⟩
  · by_contra hc
    exact h3 (.inr (.inr (.inl ⟨by omega, by omega, rfl⟩)))
  · by_contra hc
    exact h4 (.inr (.inr (.inr ⟨by omega, rfl⟩)))
  · by_contra hc
    exact h1 (.inl ⟨by omega, by omega, rfl⟩)
  · by_contra hc
    exact h2 (.inr (.inl ⟨by omega, rfl⟩))

theorem length_pieces (f u : Rect) : (pieces f u).length ≤ 4 := by
  unfold pieces
  simp only [List.length_append]
  have key : ∀ (P : Prop) [Decidable P] (y : Rect), (if P then [y] else []).length ≤ 1 := by
    intro P _ y
    split <;> simp
  have h1 := key (u.top > f.top ∧ u.top < f.top + f.height) { f with height := u.top - f.top }
  have h2 := key (u.top + u.height < f.top + f.height) { f with top := u.top + u.height, height := f.top + f.height - (u.top + u.height) }
  have h3 := key (u.left > f.left ∧ u.left < f.left + f.width) { f with width := u.left - f.left }
  have h4 := key (u.left + u.width < f.left + f.width) { f with left := u.left + u.width, width := f.left + f.width - (u.left + u.width) }
  omega

/-! ### Pushing all pieces -/

/-- Push one after the other. -/
def pushAll (dyn : Bool) : Arr → List Rect → C Arr
  | a, [] => .ok a
  | a, x :: xs => do
    let a ← push dyn a x
    pushAll dyn a xs

theorem pushAll_append (dyn : Bool) : ∀ (xs ys : List Rect) (a : Arr), pushAll dyn a (xs ++ ys) = (pushAll dyn a xs >>= fun a => pushAll dyn a ys)
  | [], _, _ => rfl
  | x :: xs, ys, a => by
    have e : ∀ zs, pushAll dyn a (x :: zs) = (push dyn a x >>= fun a => pushAll dyn a zs) := fun _ => rfl
    rw [List.cons_append, e, e]
    cases h : push dyn a x with
    | error e => rfl
    | ok b =>
      rw [ok_bind, ok_bind]
      exact pushAll_append dyn xs ys b

theorem push_live {dyn : Bool} {a b : Arr} {x : Rect} (h : push dyn a x = .ok b) :
    b.live = a.live ++ [x] ∧ (a.Ok → b.Ok) ∧ a.cap ≤ b.cap := by
  unfold push at h
  unfold Arr.Ok
  split at h
  · split at h
    · injection h with h
      subst h
      refine ⟨rfl, ?_, ?_⟩
      · dsimp only
        simp only [List.length_append, List.length_singleton]
        omega
      · dsimp only; omega
    · cases h
  · injection h with h
    subst h
    refine ⟨rfl, ?_, Nat.le_refl _⟩
    dsimp only
    simp only [List.length_append, List.length_singleton]
    omega

theorem pushAll_live {dyn : Bool} : ∀ (xs : List Rect) (a b : Arr), pushAll dyn a xs = .ok b →
    b.live = a.live ++ xs ∧ (a.Ok → b.Ok) ∧ a.cap ≤ b.cap
  | [], a, b, h => by
    injection h with h
    subst h
    exact ⟨by simp, id, Nat.le_refl _⟩
  | x :: xs, a, b, h => by
    unfold pushAll at h
    obtain ⟨c, e1, h⟩ := ok_of_bind h
    obtain ⟨h1, h2, h3⟩ := push_live e1
    obtain ⟨k1, k2, k3⟩ := pushAll_live xs c b h
    exact ⟨by rw [k1, h1]; simp, fun h => k2 (h2 h), Nat.le_trans h3 k3⟩

theorem pushAll_total {dyn : Bool} : ∀ (xs : List Rect) (a : Arr), a.live.length + xs.length ≤ a.cap →
    ∃ b, pushAll dyn a xs = .ok b ∧ b.block = a.block ∧ b.cap = a.cap ∧ b.live = a.live ++ xs
  | [], a, _ => ⟨a, rfl, rfl, rfl, by simp⟩
  | x :: xs, a, h => by
    rw [List.length_cons] at h
    have e : push dyn a x = .ok { a with live := a.live ++ [x], stale := a.stale.drop 1 } := by
      unfold push
      rw [if_neg (by omega)]
    obtain ⟨b, h1, h2, h3, h4⟩ := pushAll_total xs { a with live := a.live ++ [x], stale := a.stale.drop 1 }
      (by dsimp only; rw [List.length_append, List.length_singleton]; omega)
    refine ⟨b, ?_, h2, h3, by rw [h4]; simp⟩
    unfold pushAll
    rw [e, ok_bind, h1]

theorem pushIf_eq {dyn : Bool} (c : Bool) (a : Arr) (r : C Rect) (x : Rect) (h : c = true → r = .ok x) :
    pushIf dyn c a r = pushAll dyn a (if c then [x] else []) := by
  unfold pushIf
  cases c with
  | true =>
    rw [if_pos rfl, if_pos rfl, h rfl, ok_bind]
    unfold pushAll
    cases push dyn a x <;> rfl
  | false => rfl

theorem splitNode_eq (dyn : Bool) (a : Arr) {f u : Rect} (hf : Ranged f) (hu : Ranged u) :
    splitNode dyn a f u = if clearOf u f then .ok (false, a) else (pushAll dyn a (pieces f u) >>= fun a => .ok (true, a)) := by
  have ⟨⟨f1, f2⟩, f3, f4⟩ := hf
  have ⟨⟨u1, u2⟩, u3, u4⟩ := hu
  unfold splitNode
  rw [i32_ok (by omega) (by omega), ok_bind, i32_ok (by omega) (by omega), ok_bind, i32_ok (by omega) (by omega), ok_bind,
    i32_ok (by omega) (by omega), ok_bind]
  unfold clearOf
  split
  · rfl
  · rename_i hc
    simp only [Bool.or_eq_true, decide_eq_true_eq, not_or] at hc
    rw [if_pos (by simp; omega)]
    dsimp only
    have hsecond : (decide (u.top < f.top + f.height) && decide (u.top + u.height > f.top)) = true := by simp; omega
    simp only [hsecond, if_true]
    rw [pushIf_eq (u.top > f.top && u.top < f.top + f.height) a _ { f with height := u.top - f.top }
      (fun h => by simp at h; rw [i32_ok (by omega) (by omega), ok_bind])]
    unfold pieces
    rw [pushAll_append, pushAll_append, pushAll_append]
    simp only [Bool.and_eq_true, decide_eq_true_eq]
    cases h1 : pushAll dyn a (if u.top > f.top ∧ u.top < f.top + f.height then [{ f with height := u.top - f.top }] else []) with
    | error e => rfl
    | ok a1 =>
      simp only [ok_bind]
      rw [pushIf_eq (decide (u.top + u.height < f.top + f.height)) a1 _ { f with top := u.top + u.height, height := f.top + f.height - (u.top + u.height) }
        (fun h => by simp at h; rw [i32_ok (by omega) (by omega), ok_bind])]
      simp only [decide_eq_true_eq]
      cases h2 : pushAll dyn a1 (if u.top + u.height < f.top + f.height then
          [{ f with top := u.top + u.height, height := f.top + f.height - (u.top + u.height) }] else []) with
      | error e => rfl
      | ok a2 =>
        simp only [ok_bind]
        rw [pushIf_eq (u.left > f.left && u.left < f.left + f.width) a2 _ { f with width := u.left - f.left }
          (fun h => by simp at h; rw [i32_ok (by omega) (by omega), ok_bind])]
        simp only [Bool.and_eq_true, decide_eq_true_eq]
        cases h3 : pushAll dyn a2 (if u.left > f.left ∧ u.left < f.left + f.width then [{ f with width := u.left - f.left }] else []) with
        | error e => rfl
        | ok a3 =>
          simp only [ok_bind]
          rw [pushIf_eq (decide (u.left + u.width < f.left + f.width)) a3 _
            { f with left := u.left + u.width, width := f.left + f.width - (u.left + u.width) }
            (fun h => by simp at h; rw [i32_ok (by omega) (by omega), ok_bind])]
          simp only [decide_eq_true_eq]

/-! ### Erasing -/

theorem erase_form {a b : Arr} {i : Nat} (h : erase a i = .ok b) :
    ∃ last, a.live.getLast? = some last ∧ b.live = a.live.dropLast.set i last ∧ i < a.live.length ∧ (a.Ok → b.Ok) ∧ b.cap = a.cap ∧ b.block = a.block := by
  unfold erase at h
  obtain ⟨_, _, h⟩ := ok_of_bind h
  obtain ⟨_, e2, h⟩ := ok_of_bind h
  have hi : i < a.live.length := by
    unfold assert at e2
    split at e2
    · rename_i hc
      simpa using hc
    · cases e2
  cases hl : a.live.getLast? with
  | none =>
    rw [hl] at h
    cases h
  | some last =>
    rw [hl] at h
    injection h with h
    subst h
    refine ⟨last, rfl, rfl, hi, ?_, rfl, rfl⟩
    unfold Arr.Ok
    intro hok
    dsimp only
    rw [List.length_set, List.length_dropLast]
    omega

theorem erase_get {a b : Arr} {i k : Nat} (h : erase a i = .ok b) (hk : k + 1 < a.live.length) (hne : k ≠ i) : b.live[k]? = a.live[k]? := by
  obtain ⟨last, h1, h2, _⟩ := erase_form h
  rw [h2, List.getElem?_set_ne (by omega), List.getElem?_dropLast, if_pos (by omega)]

/-! ### The loop of the insertion -/

/-- What becomes of one free rectangle. -/
def after (u f : Rect) : List Rect := if clearOf u f then [f] else pieces f u

theorem splitLoop_ok {dyn : Bool} {u : Rect} {blk : Nat} (hu : Ranged u) (orig : List Rect) (hr : ∀ f ∈ orig, Ranged f)
    (hne : ∀ f ∈ orig, clearOf u f = false → pieces f u ≠ []) : ∀ (n i : Nat) (a a' : Arr), i + n = orig.length → a.Ok →
    orig.length ≤ a.live.length → (∀ k, i ≤ k → k < orig.length → a.live[k]? = orig[k]?) →
    a.live.Perm ((orig.take i).flatMap (after u) ++ orig.drop i) → splitLoop dyn u blk n i a = .ok a' →
    a'.live.Perm (orig.flatMap (after u)) ∧ a'.Ok ∧ a.cap ≤ a'.cap := by
  intro n
  induction n with
  | zero =>
    intro i a a' hi hok _ _ hp h
    injection h with h
    subst h
    refine ⟨?_, hok, Nat.le_refl _⟩
    rw [show i = orig.length from by omega, List.take_length, List.drop_length, List.append_nil] at hp
    exact hp
  | succ n ih =>
    intro i a a' hi hok hlen hwin hp h
    obtain ⟨f, hf⟩ : ∃ f, orig[i]? = some f := ⟨_, List.getElem?_eq_getElem (by omega)⟩
    have hfa : a.live[i]? = some f := by rw [hwin i (Nat.le_refl _) (by omega), hf]
    have hfm : f ∈ orig := List.mem_of_getElem? hf
    have htake : orig.take (i + 1) = orig.take i ++ [f] := by rw [List.take_add_one, hf]; rfl
    have hdrop : orig.drop i = f :: orig.drop (i + 1) := by
      rw [List.drop_eq_getElem_cons (by omega)]
      congr 1
      have := List.getElem?_eq_some_iff.mp hf
      exact this.2
    unfold splitLoop at h
    obtain ⟨f', e1, h⟩ : ∃ f', (if a.block = blk then entry a i else .error .invalid : C Rect) = .ok f' ∧
        ((splitNode dyn a f' u) >>= fun x => (if x.1 then erase x.2 i else .ok x.2) >>= fun a => splitLoop dyn u blk n (i + 1) a) = .ok a' := by
      dsimp only at h
      split at h
      · rename_i hb
        obtain ⟨f', e1, h⟩ := ok_of_bind h
        refine ⟨f', by rw [if_pos hb]; exact e1, ?_⟩
        obtain ⟨⟨b, a1⟩, e2, h⟩ := ok_of_bind h
        rw [e2, ok_bind]
        dsimp only at h ⊢
        cases b <;> exact h
      · cases h
    have hf' : f' = f := by
      split at e1
      · rw [entry_ok hfa] at e1
        injection e1 with e1
        exact e1.symm
      · cases e1
    subst hf'
    rw [splitNode_eq dyn a (hr f' hfm) hu] at h
    cases hc : clearOf u f' with
    | true =>
      rw [hc, if_pos rfl, ok_bind] at h
      dsimp only at h
      rw [if_neg (by decide), ok_bind] at h
      refine ih (i + 1) a a' (by omega) hok hlen (fun k h1 h2 => hwin k (by omega) h2) ?_ h
      rw [htake, List.flatMap_append, List.flatMap_cons, List.flatMap_nil, List.append_nil]
      have : after u f' = [f'] := by unfold after; rw [hc]; rfl
      rw [this, List.append_assoc, List.singleton_append, ← hdrop]
      exact hp
    | false =>
      rw [hc, if_neg (by decide)] at h
      obtain ⟨⟨b, a1'⟩, e2, h⟩ := ok_of_bind h
      obtain ⟨a1, e2', e3⟩ := ok_of_bind e2
      injection e3 with e3
      injection e3 with e3 e4
      subst e3 e4
      dsimp only at h
      rw [if_pos rfl] at h
      obtain ⟨a2, e5, h⟩ := ok_of_bind h
      obtain ⟨k1, k2, k3⟩ := pushAll_live _ _ _ e2'
      obtain ⟨last, l1, l2, l3, l4, l5, _⟩ := erase_form e5
      have hpl : 0 < (pieces f' u).length := List.length_pos_iff.mpr (hne f' hfm hc)
      have hlen1 : a1.live.length = a.live.length + (pieces f' u).length := by rw [k1, List.length_append]
      have hf1 : a1.live[i]? = some f' := by rw [k1, List.getElem?_append_left (by omega), hfa]
      have hperm := set_dropLast_perm a1.live i f' last hf1 l1
      rw [← l2] at hperm
      obtain ⟨r1, r2, r3⟩ := ih (i + 1) a2 a' (by omega) (l4 (k2 hok)) (by
          have := hperm.length_eq
          rw [List.length_cons] at this
          omega) (by
          intro k h1 h2
          rw [erase_get e5 (by omega) (by omega), k1, List.getElem?_append_left (by omega)]
          exact hwin k (by omega) h2) (by
          rw [htake, List.flatMap_append, List.flatMap_cons, List.flatMap_nil, List.append_nil]
          have hafter : after u f' = pieces f' u := by unfold after; rw [hc]; rfl
          rw [hafter]
          refine List.Perm.cons_inv (a := f') (hperm.trans ?_)
          rw [k1]
          refine (hp.append_right _).trans ?_
          rw [hdrop]
          refine List.Perm.trans ?_ (List.perm_middle (l₁ := List.flatMap (after u) (orig.take i) ++ pieces f' u) (a := f') (l₂ := orig.drop (i + 1)))
          rw [List.append_assoc, List.append_assoc]
          exact (List.Perm.append_left _ List.perm_append_comm)) h
      exact ⟨r1, r2, by omega⟩

/-- With enough memory the loop does not fail. -/
theorem splitLoop_total {dyn : Bool} {u : Rect} (hu : Ranged u) (orig : List Rect) (hr : ∀ f ∈ orig, Ranged f)
    (hne : ∀ f ∈ orig, clearOf u f = false → pieces f u ≠ []) : ∀ (n i : Nat) (a : Arr), i + n = orig.length → a.Ok →
    orig.length ≤ a.live.length → (∀ k, i ≤ k → k < orig.length → a.live[k]? = orig[k]?) → a.live.length + 3 * n + 1 ≤ a.cap →
    ∃ a', splitLoop dyn u a.block n i a = .ok a' ∧ a'.live.length ≤ a.live.length + 3 * n := by
  intro n
  induction n with
  | zero =>
    intro i a _ _ _ _ _
    exact ⟨a, rfl, Nat.le_refl _⟩
  | succ n ih =>
    intro i a hi hok hlen hwin hcap
    obtain ⟨f, hf⟩ : ∃ f, orig[i]? = some f := ⟨_, List.getElem?_eq_getElem (by omega)⟩
    have hfa : a.live[i]? = some f := by rw [hwin i (Nat.le_refl _) (by omega), hf]
    have hfm : f ∈ orig := List.mem_of_getElem? hf
    unfold splitLoop
    dsimp only
    rw [if_pos rfl, entry_ok hfa, ok_bind, splitNode_eq dyn a (hr f hfm) hu]
    cases hc : clearOf u f with
    | true =>
      rw [if_pos rfl, ok_bind]
      dsimp only
      rw [if_neg (by decide), ok_bind]
      obtain ⟨a', e1, e2⟩ := ih (i + 1) a (by omega) hok hlen (fun k h1 h2 => hwin k (by omega) h2) (by omega)
      exact ⟨a', e1, by omega⟩
    | false =>
      rw [if_neg (by decide)]
      have h4 := length_pieces f u
      obtain ⟨a1, k1, k2, k3, k4⟩ := pushAll_total (dyn := dyn) (pieces f u) a (by omega)
      rw [k1, ok_bind, ok_bind]
      dsimp only
      rw [if_pos rfl]
      have hpl : 0 < (pieces f u).length := List.length_pos_iff.mpr (hne f hfm hc)
      have hlen1 : a1.live.length = a.live.length + (pieces f u).length := by rw [k4, List.length_append]
      have hf1 : a1.live[i]? = some f := by rw [k4, List.getElem?_append_left (by omega), hfa]
      obtain ⟨a2, e1, e2, e3, e4, e5⟩ := erase_ok (a := a1) (i := i) (r := f) (by unfold Arr.Ok; omega) hf1
      have hlen2 := e2.length_eq
      rw [List.length_cons] at hlen2
      rw [e1, ok_bind]
      obtain ⟨a', g1, g2⟩ := ih (i + 1) a2 (by omega) e3 (by omega) (by
        intro k h1 h2
        rw [erase_get e1 (by omega) (by omega), k4, List.getElem?_append_left (by omega)]
        exact hwin k (by omega) h2) (by omega)
      rw [e5, k2] at g1
      exact ⟨a', g1, by omega⟩

/-! ### Pruning -/

theorem containedIn_eq {a b : Rect} (ha : Ranged a) (hb : Ranged b) : containedIn a b = .ok (decide (Within a b)) := by
  have ⟨⟨f1, f2⟩, f3, f4⟩ := ha
  have ⟨⟨u1, u2⟩, u3, u4⟩ := hb
  unfold containedIn
  rw [i32_ok (by omega) (by omega), ok_bind, i32_ok (by omega) (by omega), ok_bind, i32_ok (by omega) (by omega), ok_bind,
    i32_ok (by omega) (by omega), ok_bind]
  congr 1
  rw [Bool.eq_iff_iff]
  constructor
  · intro h
    simp only [Bool.and_eq_true, decide_eq_true_eq] at h
    exact decide_eq_true (by unfold Within; omega)
  · intro h
    have := of_decide_eq_true h
    unfold Within at this
    simp only [Bool.and_eq_true, decide_eq_true_eq]
    omega

/-- Neither is a part of the other. -/
def Inc (a b : Rect) : Prop := ¬ Within a b ∧ ¬ Within b a

/-- The entries before `i` are not comparable with any later one. -/
def Anti (i : Nat) (l : List Rect) : Prop := ∀ k m a b, k < i → k < m → l[k]? = some a → l[m]? = some b → Inc a b

/-- Everything in `l` is a part of something in `m`, and `m` has nothing that is not in `l`. -/
structure Pruned (l m : List Rect) : Prop where
  sub : ∀ x ∈ m, x ∈ l
  cover : ∀ x ∈ l, ∃ y ∈ m, Within x y

theorem Within.refl (a : Rect) : Within a a := by unfold Within; omega
theorem Within.trans {a b c : Rect} (h : Within a b) (h' : Within b c) : Within a c := by unfold Within at *; omega

theorem Pruned.refl (l : List Rect) : Pruned l l := ⟨fun _ h => h, fun x h => ⟨x, h, Within.refl x⟩⟩
theorem Pruned.trans {l m n : List Rect} (h : Pruned l m) (h' : Pruned m n) : Pruned l n :=
  ⟨fun x hx => h.sub x (h'.sub x hx), fun x hx => by
    obtain ⟨y, h1, h2⟩ := h.cover x hx
    obtain ⟨z, h3, h4⟩ := h'.cover y h1
    exact ⟨z, h3, h2.trans h4⟩⟩

theorem erase_pruned {a b : Arr} {i j : Nat} {x y : Rect} (h : erase a i = .ok b) (hi : a.live[i]? = some x) (hj : a.live[j]? = some y) (hij : i ≠ j)
    (hw : Within x y) : Pruned a.live b.live := by
  obtain ⟨last, l1, l2, l3, _⟩ := erase_form h
  have hp := set_dropLast_perm a.live i x last hi l1
  rw [← l2] at hp
  refine ⟨fun z hz => hp.mem_iff.mp (List.mem_cons_of_mem _ hz), fun z hz => ?_⟩
  rcases List.mem_cons.mp (hp.mem_iff.mpr hz) with rfl | hz
  · refine ⟨y, ?_, hw⟩
    obtain ⟨hjl, hjy⟩ := List.getElem?_eq_some_iff.mp hj
    by_cases hlast : j + 1 < a.live.length
    · exact List.mem_of_getElem? (by rw [erase_get h hlast (by omega), hj])
    · have : last = y := by
        rw [List.getLast?_eq_getElem?, show a.live.length - 1 = j from by omega, hj] at l1
        injection l1 with l1
        exact l1.symm
      subst this
      rw [l2]
      refine List.mem_iff_getElem?.mpr ⟨i, ?_⟩
      rw [List.getElem?_set_self (by rw [List.length_dropLast]; omega)]
  · exact ⟨z, hz, Within.refl z⟩

theorem erase_anti {a b : Arr} {i m : Nat} (h : erase a m = .ok b) (him : i ≤ m) (ha : Anti i a.live) : Anti i b.live := by
  obtain ⟨last, l1, l2, l3, _⟩ := erase_form h
  have hlen : b.live.length = a.live.length - 1 := by rw [l2, List.length_set, List.length_dropLast]
  intro k n x y hk hn hx hy
  have hnl : n < b.live.length := (List.getElem?_eq_some_iff.mp hy).1
  rw [erase_get h (by omega) (by omega)] at hx
  by_cases hnm : n = m
  · subst hnm
    rw [l2, List.getElem?_set_self (by rw [List.length_dropLast]; omega)] at hy
    injection hy with hy
    subst hy
    rw [List.getLast?_eq_getElem?] at l1
    exact ha k (a.live.length - 1) x _ hk (by omega) hx l1
  · rw [erase_get h (by omega) (by omega)] at hy
    exact ha k n x y hk hn hx hy

theorem pruneFrom_ok : ∀ (fuel : Nat) (arr : Arr) (i j : Nat) (x : Rect), i < j → arr.Ok → (∀ r ∈ arr.live, Ranged r) → arr.live.length - j < fuel →
    arr.live[i]? = some x → Anti i arr.live → (∀ k y, i < k → k < j → arr.live[k]? = some y → Inc x y) →
    ∃ er arr', pruneFrom fuel arr i j = .ok (er, arr') ∧ Pruned arr.live arr'.live ∧ arr'.Ok ∧ arr'.cap = arr.cap ∧
      Anti (if er then i else i + 1) arr'.live ∧ arr'.live.length + (if er then 1 else 0) ≤ arr.live.length := by
  intro fuel
  induction fuel with
  | zero => intro arr i j x _ _ _ h; omega
  | succ fuel ih =>
    intro arr i j x hij hok hr hfuel hx hanti hinc
    unfold pruneFrom
    split
    swap
    · rename_i hj
      refine ⟨false, arr, rfl, Pruned.refl _, hok, rfl, ?_, Nat.le_refl _⟩
      intro k m a b hk hm ha hb
      by_cases hki : k = i
      · subst hki
        rw [hx] at ha
        injection ha with ha
        subst ha
        have := (List.getElem?_eq_some_iff.mp hb).1
        exact hinc m b hm (by omega) hb
      · exact hanti k m a b (by simp at hk; omega) hm ha hb
    rename_i hj
    obtain ⟨y, hy⟩ : ∃ y, arr.live[j]? = some y := ⟨_, List.getElem?_eq_getElem hj⟩
    have hxr := hr x (List.mem_of_getElem? hx)
    have hyr := hr y (List.mem_of_getElem? hy)
    rw [entry_ok hx, ok_bind, entry_ok hy, ok_bind, containedIn_eq hxr hyr, ok_bind]
    by_cases hxy : Within x y
    · rw [if_pos (by simpa using hxy)]
      obtain ⟨b, e1, e2, e3, e4, _⟩ := erase_ok hok hx
      rw [e1, ok_bind]
      refine ⟨true, b, rfl, erase_pruned e1 hx hy (by omega) hxy, e3, e4, erase_anti e1 (Nat.le_refl _) hanti, ?_⟩
      have := e2.length_eq
      rw [List.length_cons] at this
      simp
      omega
    · rw [if_neg (by simpa using hxy), containedIn_eq hyr hxr, ok_bind]
      by_cases hyx : Within y x
      · rw [if_pos (by simpa using hyx)]
        obtain ⟨b, e1, e2, e3, e4, _⟩ := erase_ok hok hy
        have hlen := e2.length_eq
        rw [List.length_cons] at hlen
        have hprun := erase_pruned e1 hy hx (by omega) hyx
        rw [e1, ok_bind]
        obtain ⟨er, arr', f1, f2, f3, f4, f5, f6⟩ := ih b i j x hij e3 (fun r h => hr r (hprun.sub r h)) (by omega)
          (by rw [erase_get e1 (by omega) (by omega), hx]) (erase_anti e1 (by omega) hanti) (by
            intro k z h1 h2 h3
            have := (List.getElem?_eq_some_iff.mp h3).1
            rw [erase_get e1 (by omega) (by omega)] at h3
            exact hinc k z h1 h2 h3)
        exact ⟨er, arr', f1, hprun.trans f2, f3, f4.trans e4, f5, by omega⟩
      · rw [if_neg (by simpa using hyx)]
        refine ih arr i (j + 1) x (by omega) hok hr (by omega) hx hanti ?_
        intro k z h1 h2 h3
        by_cases hkj : k = j
        · subst hkj
          rw [hy] at h3
          injection h3 with h3
          subst h3
          exact ⟨hxy, hyx⟩
        · exact hinc k z h1 (by omega) h3

theorem pruneLoop_ok : ∀ (fuel : Nat) (arr : Arr) (i : Nat), arr.Ok → (∀ r ∈ arr.live, Ranged r) → arr.live.length - i < fuel → Anti i arr.live →
    ∃ arr', pruneLoop fuel arr i = .ok arr' ∧ Pruned arr.live arr'.live ∧ arr'.Ok ∧ arr'.cap = arr.cap ∧ arr'.live.Pairwise Inc := by
  intro fuel
  induction fuel with
  | zero => intro arr i _ _ h; omega
  | succ fuel ih =>
    intro arr i hok hr hfuel hanti
    unfold pruneLoop
    split
    · rename_i hi
      obtain ⟨x, hx⟩ : ∃ x, arr.live[i]? = some x := ⟨_, List.getElem?_eq_getElem hi⟩
      obtain ⟨er, arr1, e1, e2, e3, e4, e5, e6⟩ := pruneFrom_ok (arr.live.length + 1) arr i (i + 1) x (by omega) hok hr (by omega) hx hanti
        (fun k _ h1 h2 => by omega)
      rw [e1, ok_bind]
      dsimp only
      obtain ⟨arr2, f1, f2, f3, f4, f5⟩ := ih arr1 (if er then i else i + 1) e3 (fun r h => hr r (e2.sub r h)) (by
        cases er
        · simp at e6 ⊢; omega
        · simp at e6 ⊢; omega) e5
      exact ⟨arr2, f1, e2.trans f2, f3, f4.trans e4, f5⟩
    · rename_i hi
      refine ⟨arr, rfl, Pruned.refl _, hok, rfl, ?_⟩
      rw [List.pairwise_iff_getElem]
      intro k m hk hm hkm
      exact hanti k m _ _ (by omega) hkm (List.getElem?_eq_getElem hk) (List.getElem?_eq_getElem hm)

end Tm.Pack
