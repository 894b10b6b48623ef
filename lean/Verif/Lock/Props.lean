import Verif.Lock.Model
import Verif.Alloc.StackProps
import Mathlib.Data.List.Perm.Subperm

/-!
# Threads that share a `LockingAllocator`

Every call takes effect at one point between its call and its return, or, if it throws, not at all; at these points the allocator behaves as if
it were used by one thread.
-/
namespace Tm.Lock

variable {W O R : Type}

/-! ## Specification -/

/-- What can be seen from outside, and the points at which calls take effect. -/
inductive Mark (O R : Type) where
  | seen (e : Event O R)
  | point (t : Nat) (o : O) (r : R)
deriving DecidableEq, Repr

/-- Without the points. -/
def visible (l : List (Mark O R)) : List (Event O R) := l.filterMap fun
  | .seen e => some e
  | .point _ _ _ => none

/-- The calls in the order in which they take effect, with their results. -/
def points (l : List (Mark O R)) : List (O × R) := l.filterMap fun
  | .seen _ => none
  | .point _ o r => some (o, r)

/-- What a thread is doing: nothing, a call that has not taken effect, a call that has. -/
inductive Doing (O R : Type) where
  | nothing
  | called (o : O)
  | decided (r : R)
deriving DecidableEq, Repr

/-- The marks of one thread: a call takes effect once, between the call and the return, and returns the result it had then; a call that throws takes no
effect. -/
inductive Orderly (t : Nat) : List (Mark O R) → Doing O R → Prop where
  | start : Orderly t [] .nothing
  | call {l o} : Orderly t l .nothing → Orderly t (l ++ [.seen (.call t o)]) (.called o)
  | point {l o r} : Orderly t l (.called o) → Orderly t (l ++ [.point t o r]) (.decided r)
  | ret {l r} : Orderly t l (.decided r) → Orderly t (l ++ [.seen (.ret t r)]) .nothing
  | threw {l o} : Orderly t l (.called o) → Orderly t (l ++ [.seen (.threw t)]) .nothing
  | others {l x m} : Orderly t l x → (match m with | .seen (.call u _) => u ≠ t | .seen (.ret u _) => u ≠ t | .seen (.threw u) => u ≠ t | .point u _ _ => u ≠ t) →
      Orderly t (l ++ [m]) x

/-- One thread uses the allocator: it calls these functions with these results. -/
inductive Alone (obj : Object W O R) : List W → List (O × R) → List W → Prop where
  | start (s : List W) : Alone obj s [] s
  | step {s l s' o r s''} : Alone obj s l s' → obj.exec o s' = .ok (r, s'') → Alone obj s (l ++ [(o, r)]) s''

/-- The blocks that the threads got. -/
def got (log : List (Event StackOp Alloc.Block)) : List Alloc.Block := log.filterMap fun
  | .ret _ r => some r
  | _ => none

/-- Two blocks do not overlap; a null pointer is no block. -/
def Apart (a b : Alloc.Block) : Prop :=
  a.ptr = 0 ∨ b.ptr = 0 ∨ a.ptr.toNat + a.size.toNat ≤ b.ptr.toNat ∨ b.ptr.toNat + b.size.toNat ≤ a.ptr.toNat

/-! ## Proofs -/

def doing : Phase W O R → Doing O R
  | .idle => .nothing
  | .wants o => .called o
  | .loading o _ => .called o
  | .storing r _ _ => .decided r
  | .leaving r => .decided r

/-- Not inside the mutex. -/
def Outside : Phase W O R → Prop
  | .loading _ _ => False
  | .storing _ _ _ => False
  | _ => True

/-- What the words are, where `s` is what they would be if every call were one step. -/
def Inner (st : State W O R) (s : List W) : Prop :=
  match st.owner with
  | none => st.cells = s
  | some t => match st.phase t with
    | .loading _ regs => st.cells = s ∧ regs = s.take regs.length ∧ regs.length ≤ s.length
    | .storing _ out i => s = out ∧ out.length = st.cells.length ∧ st.cells = out.take i ++ st.cells.drop i
    | _ => False

structure Inv (obj : Object W O R) (s0 : List W) (st : State W O R) (l : List (Mark O R)) (s : List W) : Prop where
  vis : visible l = st.log
  orderly : ∀ t, Orderly t l (doing (st.phase t))
  alone : Alone obj s0 (points l) s
  outside : ∀ t, st.owner ≠ some t → Outside (st.phase t)
  inner : Inner st s

theorem at_self (st : State W O R) (t : Nat) (x : Phase W O R) : st.at t x t = x := if_pos rfl

theorem at_other (st : State W O R) {t u : Nat} (x : Phase W O R) (h : u ≠ t) : st.at t x u = st.phase u := if_neg h

theorem visible_seen (l : List (Mark O R)) (e : Event O R) : visible (l ++ [.seen e]) = visible l ++ [e] := by
  simp [visible]

theorem visible_point (l : List (Mark O R)) (t : Nat) (o : O) (r : R) : visible (l ++ [.point t o r]) = visible l := by
  simp [visible]

theorem points_seen (l : List (Mark O R)) (e : Event O R) : points (l ++ [.seen e]) = points l := by
  simp [points]

theorem points_point (l : List (Mark O R)) (t : Nat) (o : O) (r : R) : points (l ++ [.point t o r]) = points l ++ [(o, r)] := by
  simp [points]

/-- A thread outside the mutex moves on, still outside. -/
theorem inner_outside {st : State W O R} {s : List W} {t : Nat} {x : Phase W O R} {log : List (Event O R)} (h : Inner st s)
    (ho : Outside (st.phase t)) : Inner { st with phase := st.at t x, log := log } s := by
  unfold Inner at h ⊢
  dsimp only at h ⊢
  cases hw : st.owner with
  | none => rw [hw] at h; exact h
  | some u =>
    rw [hw] at h
    dsimp only at h ⊢
    by_cases e : u = t
    · subst e
      cases hp : st.phase u <;> rw [hp] at h ho <;> simp_all [Outside]
    · rw [at_other _ _ e]
      exact h

theorem outside_at {st : State W O R} {t : Nat} {x : Phase W O R} (h : ∀ u, st.owner ≠ some u → Outside (st.phase u)) (hx : st.owner ≠ some t → Outside x) :
    ∀ u, st.owner ≠ some u → Outside (st.at t x u) := by
  intro u hu
  by_cases e : u = t
  · subst e
    rw [at_self]
    exact hx hu
  · rw [at_other _ _ e]
    exact h u hu

theorem orderly_at {st : State W O R} {t : Nat} {x : Phase W O R} {l l' : List (Mark O R)} (h : ∀ u, Orderly u l (doing (st.phase u)))
    (hx : Orderly t l (doing (st.phase t)) → Orderly t l' (doing x)) (hu : ∀ u, u ≠ t → ∀ y, Orderly u l y → Orderly u l' y) :
    ∀ u, Orderly u l' (doing (st.at t x u)) := by
  intro u
  by_cases e : u = t
  · subst e
    rw [at_self]
    exact hx (h u)
  · rw [at_other _ _ e]
    exact hu u e _ (h u)

theorem step_inv {obj : Object W O R} {s0 : List W} {st st' : State W O R} {l : List (Mark O R)} {s : List W} (h : Inv obj s0 st l s) {a : Act O}
    (e : st.step obj a = .ok (some st')) : ∃ l' s', Inv obj s0 st' l' s' := by
  cases a with
  | call t o =>
    unfold State.step at e
    dsimp only at e
    split at e
    · rename_i hp
      injection e with e
      injection e with e
      subst e
      refine ⟨l ++ [.seen (.call t o)], s, ?_, ?_, ?_, ?_, ?_⟩
      · rw [visible_seen, h.vis]
      · exact orderly_at h.orderly (fun hx => by rw [hp] at hx; exact .call hx) fun u hu y hy => .others hy (Ne.symm hu)
      · rw [points_seen]; exact h.alone
      · exact outside_at h.outside fun _ => trivial
      · exact inner_outside h.inner (by rw [hp]; trivial)
    · cases e
  | fails t =>
    unfold State.step at e
    dsimp only at e
    split at e
    · rename_i o hp
      injection e with e
      injection e with e
      subst e
      refine ⟨l ++ [.seen (.threw t)], s, ?_, ?_, ?_, ?_, ?_⟩
      · rw [visible_seen, h.vis]
      · exact orderly_at h.orderly (fun hx => by rw [hp] at hx; exact .threw hx) fun u hu y hy => .others hy (Ne.symm hu)
      · rw [points_seen]; exact h.alone
      · exact outside_at h.outside fun _ => trivial
      · exact inner_outside h.inner (by rw [hp]; trivial)
    · cases e
  | run t =>
    -- the thread that is inside is the owner
    have own : ¬ Outside (st.phase t) → st.owner = some t := by
      intro hn
      rcases Classical.em (st.owner = some t) with h1 | h1
      · exact h1
      · exact absurd (h.outside t h1) hn
    unfold State.step at e
    dsimp only at e
    split at e
    · cases e
    · rename_i o hp
      split at e
      · rename_i hw
        injection e with e
        injection e with e
        subst e
        refine ⟨l, s, h.vis, ?_, h.alone, ?_, ?_⟩
        · exact orderly_at h.orderly (fun hx => by rw [hp] at hx; exact hx) fun u hu y hy => hy
        · intro u hu
          have ne : u ≠ t := fun e => hu (by rw [e])
          dsimp only
          rw [at_other _ _ ne]
          exact h.outside u (by rw [hw]; exact fun e => by cases e)
        · have hi := h.inner
          unfold Inner at hi ⊢
          rw [hw] at hi
          dsimp only at hi ⊢
          rw [at_self]
          exact ⟨hi, by simp, by simp⟩
      · cases e
    · rename_i o regs hp
      have ho := own (by rw [hp]; exact fun h => h)
      have hi := h.inner
      unfold Inner at hi
      rw [ho] at hi
      dsimp only at hi
      rw [hp] at hi
      dsimp only at hi
      obtain ⟨h1, h2, h3⟩ := hi
      split at e
      · rename_i w hw
        injection e with e
        injection e with e
        subst e
        refine ⟨l, s, h.vis, ?_, h.alone, ?_, ?_⟩
        · exact orderly_at h.orderly (fun hx => by rw [hp] at hx; exact hx) fun u hu y hy => hy
        · exact outside_at h.outside fun hn => absurd ho hn
        · unfold Inner
          dsimp only
          rw [ho]
          dsimp only
          rw [at_self]
          rw [h1] at hw
          obtain ⟨hlt, hw⟩ := List.getElem?_eq_some_iff.1 hw
          refine ⟨h1, ?_, ?_⟩
          · rw [List.length_append, List.length_singleton, List.take_add_one, ← h2, List.getElem?_eq_getElem hlt, hw]
            rfl
          · rw [List.length_append, List.length_singleton]
            omega
      · rename_i hw
        have hall : regs = s := by
          rw [h1] at hw
          have := List.getElem?_eq_none_iff.1 hw
          rw [h2, List.take_of_length_le this]
        cases hx : obj.exec o regs with
        | error f => rw [hx] at e; cases e
        | ok x =>
          rw [hx] at e
          have e : Except.ok (some { st with phase := st.at t (.storing x.1 x.2 0) }) = (Except.ok (some st') : C _) := e
          injection e with e
          injection e with e
          subst e
          refine ⟨l ++ [.point t o x.1], x.2, ?_, ?_, ?_, ?_, ?_⟩
          · rw [visible_point]; exact h.vis
          · exact orderly_at h.orderly (fun hy => by rw [hp] at hy; exact .point hy) fun u hu y hy => .others hy (Ne.symm hu)
          · rw [points_point]
            exact .step h.alone (by rw [← hall]; exact hx)
          · exact outside_at h.outside fun hn => absurd ho hn
          · unfold Inner
            dsimp only
            rw [ho]
            dsimp only
            rw [at_self]
            exact ⟨rfl, by rw [obj.size o regs x.1 x.2 hx, h1, hall], by simp⟩
    · rename_i r out i hp
      have ho := own (by rw [hp]; exact fun h => h)
      have hi := h.inner
      unfold Inner at hi
      rw [ho] at hi
      dsimp only at hi
      rw [hp] at hi
      dsimp only at hi
      obtain ⟨h1, h2, h3⟩ := hi
      split at e
      · rename_i w hw
        injection e with e
        injection e with e
        subst e
        obtain ⟨hlt, hw⟩ := List.getElem?_eq_some_iff.1 hw
        refine ⟨l, s, h.vis, ?_, h.alone, ?_, ?_⟩
        · exact orderly_at h.orderly (fun hx => by rw [hp] at hx; exact hx) fun u hu y hy => hy
        · exact outside_at h.outside fun hn => absurd ho hn
        · unfold Inner
          dsimp only
          rw [ho]
          dsimp only
          rw [at_self]
          refine ⟨h1, by rw [List.length_set]; exact h2, ?_⟩
          have hc : i < st.cells.length := by omega
          apply List.ext_getElem?
          intro j
          have hj := congrArg (·[j]?) h3
          have lt : (out.take i).length = i := by rw [List.length_take]; omega
          have lt' : (out.take (i + 1)).length = i + 1 := by rw [List.length_take]; omega
          by_cases c1 : j < i
          · rw [List.getElem?_set_ne (by omega), hj, List.getElem?_append_left (by omega), List.getElem?_append_left (by omega), List.getElem?_take_of_lt c1,
              List.getElem?_take_of_lt (by omega)]
          · by_cases c2 : j = i
            · subst c2
              rw [List.getElem?_set_self hc, List.getElem?_append_left (by omega), List.getElem?_take_of_lt (by omega), List.getElem?_eq_getElem hlt, hw]
            · rw [List.getElem?_set_ne (by omega), List.getElem?_append_right (by omega), lt', List.getElem?_drop, List.getElem?_set_ne (by omega)]
              congr 1
              omega
      · rename_i hw
        injection e with e
        injection e with e
        subst e
        have := List.getElem?_eq_none_iff.1 hw
        refine ⟨l, s, h.vis, ?_, h.alone, ?_, ?_⟩
        · exact orderly_at h.orderly (fun hx => by rw [hp] at hx; exact hx) fun u hu y hy => hy
        · intro u _
          dsimp only
          by_cases e : u = t
          · subst e
            rw [at_self]
            trivial
          · rw [at_other _ _ e]
            exact h.outside u (by rw [ho]; exact fun h => e (by injection h with h; exact h.symm))
        · unfold Inner
          dsimp only
          rw [h3, h1, List.take_of_length_le this, List.drop_of_length_le (by omega), List.append_nil]
    · rename_i r hp
      injection e with e
      injection e with e
      subst e
      refine ⟨l ++ [.seen (.ret t r)], s, ?_, ?_, ?_, ?_, ?_⟩
      · rw [visible_seen, h.vis]
      · exact orderly_at h.orderly (fun hx => by rw [hp] at hx; exact .ret hx) fun u hu y hy => .others hy (Ne.symm hu)
      · rw [points_seen]; exact h.alone
      · exact outside_at h.outside fun _ => trivial
      · exact inner_outside h.inner (by rw [hp]; trivial)

theorem start_inv (obj : Object W O R) (s0 : List W) : Inv obj s0 (State.start s0) [] s0 :=
  ⟨rfl, fun _ => .start, .start s0, fun _ _ => trivial, rfl⟩

theorem runs_inv {obj : Object W O R} {s0 : List W} : ∀ (acts : List (Act O)) {st st' : State W O R} {l : List (Mark O R)} {s : List W}, Inv obj s0 st l s →
    st.runs obj acts = .ok st' → ∃ l' s', Inv obj s0 st' l' s'
  | [], st, st', l, s, h, e => by
    injection e with e
    exact ⟨l, s, e ▸ h⟩
  | a :: acts, st, st', l, s, h, e => by
    rw [State.runs] at e
    cases hx : st.step obj a with
    | error f => rw [hx] at e; cases e
    | ok x =>
      rw [hx] at e
      cases x with
      | none => exact runs_inv acts h e
      | some st1 =>
        obtain ⟨l1, s1, h1⟩ := step_inv h hx
        exact runs_inv acts h1 e

theorem runs_split {obj : Object W O R} {f : Fault} : ∀ (acts : List (Act O)) {st : State W O R}, st.runs obj acts = .error f →
    ∃ before a after st', acts = before ++ a :: after ∧ st.runs obj before = .ok st' ∧ st'.step obj a = .error f
  | [], st, e => by cases e
  | a :: acts, st, e => by
    rw [State.runs] at e
    cases hx : st.step obj a with
    | error g =>
      rw [hx] at e
      injection e with e
      subst e
      exact ⟨[], a, acts, st, rfl, rfl, hx⟩
    | ok x =>
      rw [hx] at e
      cases x with
      | none =>
        obtain ⟨b, c, d, st', h1, h2, h3⟩ := runs_split acts e
        refine ⟨a :: b, c, d, st', by rw [h1]; rfl, ?_, h3⟩
        rw [State.runs, hx]
        exact h2
      | some st1 =>
        obtain ⟨b, c, d, st', h1, h2, h3⟩ := runs_split acts e
        refine ⟨a :: b, c, d, st', by rw [h1]; rfl, ?_, h3⟩
        rw [State.runs, hx]
        exact h2

theorem step_fault {obj : Object W O R} {s0 : List W} {f : Fault} {a : Act O} {st : State W O R} {l : List (Mark O R)} {s : List W} (h : Inv obj s0 st l s)
    (hx : st.step obj a = .error f) : ∃ t o, a = .run t ∧ Orderly t l (.called o) ∧ obj.exec o s = .error f := by
  cases a with
  | call t o => unfold State.step at hx; dsimp only at hx; split at hx <;> cases hx
  | fails t => unfold State.step at hx; dsimp only at hx; split at hx <;> cases hx
  | run t =>
    unfold State.step at hx
    dsimp only at hx
    split at hx
    · cases hx
    · split at hx <;> cases hx
    · rename_i o regs hp
      split at hx
      · cases hx
      · rename_i hw
        cases hy : obj.exec o regs with
        | ok y => rw [hy] at hx; cases hx
        | error g' =>
          rw [hy] at hx
          injection hx with hx
          subst hx
          have ho : st.owner = some t := by
            rcases Classical.em (st.owner = some t) with h1 | h1
            · exact h1
            · exact absurd (h.outside t h1) (by rw [hp]; exact fun h => h)
          have hi := h.inner
          unfold Inner at hi
          rw [ho] at hi
          dsimp only at hi
          rw [hp] at hi
          obtain ⟨h1, h2, h3⟩ := hi
          have hall : regs = s := by
            rw [h1] at hw
            have := List.getElem?_eq_none_iff.1 hw
            rw [h2, List.take_of_length_le this]
          refine ⟨t, o, rfl, ?_, by rw [← hall]; exact hy⟩
          have := h.orderly t
          rw [hp] at this
          exact this
    · split at hx <;> cases hx
    · cases hx

def tagged (l : List (Mark O R)) : List (Nat × R) := l.filterMap fun
  | .seen _ => none
  | .point t _ r => some (t, r)

def returned (log : List (Event O R)) : List (Nat × R) := log.filterMap fun
  | .ret t r => some (t, r)
  | _ => none

def undelivered (t : Nat) : Doing O R → List (Nat × R)
  | .decided r => [(t, r)]
  | _ => []

theorem orderly_returned {t : Nat} {l : List (Mark O R)} {x : Doing O R} (h : Orderly t l x) :
    (tagged l).filter (fun y => y.1 == t) = (returned (visible l)).filter (fun y => y.1 == t) ++ undelivered t x := by
  induction h with
  | start => rfl
  | call _ ih => simpa [undelivered, tagged, returned, visible, List.filterMap_append] using ih
  | point _ ih => simpa [undelivered, tagged, returned, visible, List.filterMap_append] using ih
  | ret _ ih => simpa [undelivered, tagged, returned, visible, List.filterMap_append] using ih
  | threw _ ih => simpa [undelivered, tagged, returned, visible, List.filterMap_append] using ih
  | @others l x m _ hm ih =>
    cases m with
    | point u o r => simpa [undelivered, tagged, returned, visible, List.filterMap_append, beq_eq_false_iff_ne.2 hm, List.filter_cons, hm] using ih
    | seen e => cases e <;> simpa [undelivered, tagged, returned, visible, List.filterMap_append, List.filter_cons, hm] using ih

theorem orderly_called {t : Nat} {l : List (Mark O R)} {x : Doing O R} (h : Orderly t l x) :
    (∀ o r, .point t o r ∈ l → .seen (.call t o) ∈ l) ∧ ∀ o, x = .called o → .seen (.call t o) ∈ l := by
  induction h with
  | start => exact ⟨(fun o r h => by cases h), fun o h => by cases h⟩
  | call _ ih =>
    refine ⟨fun o r h => ?_, fun o h => ?_⟩
    · simp only [List.mem_append, List.mem_singleton, reduceCtorEq, or_false] at h
      exact List.mem_append_left _ (ih.1 o r h)
    · injection h with h
      simp [h]
  | point _ ih =>
    refine ⟨fun o r h => ?_, fun o h => by cases h⟩
    rcases List.mem_append.1 h with h | h
    · exact List.mem_append_left _ (ih.1 o r h)
    · rw [List.mem_singleton] at h
      injection h with _ h _
      exact List.mem_append_left _ (ih.2 o (by rw [h]))
  | ret _ ih =>
    refine ⟨fun o r h => ?_, fun o h => by cases h⟩
    simp only [List.mem_append, List.mem_singleton, reduceCtorEq, or_false] at h
    exact List.mem_append_left _ (ih.1 o r h)
  | threw _ ih =>
    refine ⟨fun o r h => ?_, fun o h => by cases h⟩
    simp only [List.mem_append, List.mem_singleton, reduceCtorEq, or_false] at h
    exact List.mem_append_left _ (ih.1 o r h)
  | @others l x m _ hm ih =>
    refine ⟨fun o r h => ?_, fun o h => List.mem_append_left _ (ih.2 o h)⟩
    rcases List.mem_append.1 h with h | h
    · exact List.mem_append_left _ (ih.1 o r h)
    · rw [List.mem_singleton] at h
      subst h
      exact absurd rfl hm

/-- A call that is allowed. -/
def Fit (o : StackOp) : Prop := ∃ size a, o = .allocate size a ∧ size ≠ 0 ∧ size.toNat < 2 ^ 62 ∧ ∃ k, k ≤ 62 ∧ a.toNat = 2 ^ k

theorem alone_stack {p cap : Alloc.U64} (hb : p ≠ 0 ∧ cap ≠ 0 ∧ cap.toNat < 2 ^ 62 ∧ p.toNat + cap.toNat < 2 ^ 64) {s0 s : List Alloc.U64}
    {calls : List (StackOp × Alloc.Block)} (h : Alone stack s0 calls s) (h0 : s0 = words ⟨p, 0, cap, 0⟩) (hf : ∀ x ∈ calls, Fit x.1) :
    ∃ st : Alloc.Stack, s = words st ∧ st.p = p ∧ st.cap = cap ∧ st.sz.toNat ≤ cap.toNat ∧ (calls.map (·.2)).Pairwise Apart ∧
      ∀ x ∈ calls, x.2.ptr ≠ 0 → p.toNat ≤ x.2.ptr.toNat ∧ x.2.ptr.toNat + x.2.size.toNat ≤ p.toNat + st.sz.toNat := by
  induction h with
  | start => exact ⟨⟨p, 0, cap, 0⟩, h0, rfl, rfl, Nat.zero_le _, List.Pairwise.nil, fun x hx => by cases hx⟩
  | @step l s' o r s'' ha he ih =>
    obtain ⟨st, e1, e2, e3, e4, e5, e6⟩ := ih fun x hx => hf x (List.mem_append_left _ hx)
    obtain ⟨size, a, ho, hs0, hs1, hk⟩ := hf (o, r) (by simp)
    dsimp only at ho
    subst ho e1
    have he : (do
      let x ← st.allocate size a
      .ok (x.1, words x.2) : C _) = .ok (r, s'') := he
    obtain ⟨start, ⟨g1, _, _⟩, g2, g3⟩ := Alloc.C25_allocate st size a ⟨by rw [e2]; exact hb.1, by rw [e3]; exact hb.2.1, by rw [e3]; exact e4⟩
      ⟨by rw [e3]; exact hb.2.2.1, by rw [e2, e3]; exact hb.2.2.2⟩ hk ⟨hs0, hs1⟩
    by_cases hfit : start + size.toNat ≤ st.p.toNat + st.cap.toNat
    · obtain ⟨r', st', f1, f2, f3, f4, f5⟩ := g2 hfit
      rw [f1] at he
      have he : Except.ok (⟨r', size⟩, words st') = (Except.ok (r, s'') : C (Alloc.Block × List Alloc.U64)) := he
      injection he with he
      injection he with he1 he2
      subst he1 he2
      refine ⟨st', rfl, f3.trans e2, f4.trans e3, ?_, ?_, ?_⟩
      · rw [e2, e3] at hfit
        rw [f3, e2] at f5
        omega
      · rw [List.map_append, List.pairwise_append]
        refine ⟨e5, by simp, ?_⟩
        intro x hx y hy
        obtain ⟨z, hz, rfl⟩ := List.mem_map.1 hx
        simp only [List.map_cons, List.map_nil, List.mem_singleton] at hy
        subst hy
        by_cases h0 : z.2.ptr = 0
        · exact Or.inl h0
        · have := e6 z hz h0
          refine Or.inr (Or.inr (Or.inl ?_))
          dsimp only
          rw [f2]
          rw [e2] at g1
          omega
      · intro x hx hx0
        rw [f3, e2] at f5
        rw [e2] at g1
        rcases List.mem_append.1 hx with hx | hx
        · have := e6 x hx hx0
          omega
        · rw [List.mem_singleton] at hx
          subst hx
          dsimp only
          omega
    · rw [g3 (by omega)] at he
      have he : Except.ok (⟨0, 0⟩, words st) = (Except.ok (r, s'') : C (Alloc.Block × List Alloc.U64)) := he
      injection he with he
      injection he with he1 he2
      subst he1 he2
      refine ⟨st, rfl, e2, e3, e4, ?_, ?_⟩
      · rw [List.map_append, List.pairwise_append]
        refine ⟨e5, by simp, ?_⟩
        intro x hx y hy
        simp only [List.map_cons, List.map_nil, List.mem_singleton] at hy
        subst hy
        exact Or.inr (Or.inl rfl)
      · intro x hx hx0
        rcases List.mem_append.1 hx with hx | hx
        · exact e6 x hx hx0
        · rw [List.mem_singleton] at hx
          subst hx
          exact absurd rfl hx0

theorem got_returned (log : List (Event StackOp Alloc.Block)) : got log = (returned log).map (·.2) := by
  induction log with
  | nil => rfl
  | cons e log ih => cases e <;> simpa [got, returned] using ih

theorem points_tagged (l : List (Mark O R)) : (points l).map (·.2) = (tagged l).map (·.2) := by
  induction l with
  | nil => rfl
  | cons m l ih => cases m <;> simpa [points, tagged] using ih

theorem returned_subperm [DecidableEq R] {l : List (Mark O R)} (h : ∀ t, ∃ x, Orderly t l x) : (returned (visible l)).Subperm (tagged l) := by
  rw [List.subperm_ext_iff]
  rintro ⟨t, r⟩ _
  obtain ⟨x, hx⟩ := h t
  have e := orderly_returned hx
  have c : ∀ L : List (Nat × R), L.count (t, r) = (L.filter (fun y => y.1 == t)).count (t, r) := fun L => (List.count_filter (by simp)).symm
  rw [c, c (tagged l), e, List.count_append]
  omega

/-! ## Theorems -/

/-- C257: whatever the threads do, every call takes effect at one point between the call and its return, with the result that it returns; a call that throws takes
no effect; at these points the allocator inside behaves as if one thread used it, and when no call is in progress its words are those that this thread
would leave. -/
theorem C257_one_at_a_time {obj : Object W O R} {s0 : List W} {acts : List (Act O)} {st : State W O R} (h : (State.start s0).runs obj acts = .ok st) :
    ∃ l s, visible l = st.log ∧ (∀ t, ∃ x, Orderly t l x) ∧ Alone obj s0 (points l) s ∧ ((∀ t, st.phase t = .idle) → st.cells = s) := by
  obtain ⟨l, s, hi⟩ := runs_inv acts (start_inv obj s0) h
  refine ⟨l, s, hi.vis, fun t => ⟨_, hi.orderly t⟩, hi.alone, fun hid => ?_⟩
  have h1 := hi.inner
  unfold Inner at h1
  split at h1
  · exact h1
  · rw [hid] at h1
    exact h1.elim

/-- C257: if an assertion fails, or anything else goes wrong inside, then it does so in a call that has not taken effect yet, and it does so as well for one thread that
makes the calls that have taken effect and then this one. -/
theorem C257_fault {obj : Object W O R} {s0 : List W} {acts : List (Act O)} {f : Fault} (h : (State.start s0).runs obj acts = .error f) :
    ∃ before t after st, acts = before ++ .run t :: after ∧ (State.start s0).runs obj before = .ok st ∧
      ∃ l o s, visible l = st.log ∧ (∀ u, ∃ x, Orderly u l x) ∧ Orderly t l (.called o) ∧ Alone obj s0 (points l) s ∧ obj.exec o s = .error f := by
  obtain ⟨b, a, c, st, h1, h2, h3⟩ := runs_split acts h
  obtain ⟨l, s, hi⟩ := runs_inv b (start_inv obj s0) h2
  obtain ⟨t, o, rfl, h5, h6⟩ := step_fault hi h3
  exact ⟨b, t, c, st, h1, h2, l, o, s, hi.vis, fun u => ⟨_, hi.orderly u⟩, h5, hi.alone, h6⟩

/-- C258: there is no deadlock: as long as a call is in progress some thread can go on. -/
theorem C258_goes_on {obj : Object W O R} {s0 : List W} {acts : List (Act O)} {st : State W O R} (h : (State.start s0).runs obj acts = .ok st) {t : Nat}
    (ht : st.phase t ≠ .idle) : ∃ u, st.step obj (.run u) ≠ .ok none := by
  obtain ⟨l, s, hi⟩ := runs_inv acts (start_inv obj s0) h
  cases hw : st.owner with
  | some u =>
    refine ⟨u, ?_⟩
    have h1 := hi.inner
    unfold Inner at h1
    rw [hw] at h1
    unfold State.step
    dsimp only at h1 ⊢
    split at h1
    · rename_i o regs hp
      rw [hp]
      dsimp only
      split
      · exact fun e => by cases e
      · cases obj.exec o regs <;> exact fun e => by cases e
    · rename_i r out i hp
      rw [hp]
      dsimp only
      split <;> exact fun e => by cases e
    · exact h1.elim
  | none =>
    refine ⟨t, ?_⟩
    have h1 := hi.outside t (by rw [hw]; exact fun e => by cases e)
    unfold State.step
    dsimp only
    cases hp : st.phase t with
    | idle => exact absurd hp ht
    | wants o => dsimp only; rw [hw]; exact fun e => by cases e
    | loading o regs => rw [hp] at h1; exact h1.elim
    | storing r out i => rw [hp] at h1; exact h1.elim
    | leaving r => exact fun e => by cases e

/-- C259: the blocks that threads get from a shared stack allocator, if they only allocate, lie in its buffer and do not overlap, whoever got them and
whenever. -/
theorem C259_blocks {p cap : Alloc.U64} (hb : p ≠ 0 ∧ cap ≠ 0 ∧ cap.toNat < 2 ^ 62 ∧ p.toNat + cap.toNat < 2 ^ 64) {acts : List (Act StackOp)}
    {st : State Alloc.U64 StackOp Alloc.Block} (h : (State.start (words ⟨p, 0, cap, 0⟩)).runs stack acts = .ok st)
    (hc : ∀ t o, .call t o ∈ st.log → ∃ size a, o = .allocate size a ∧ size ≠ 0 ∧ size.toNat < 2 ^ 62 ∧ ∃ k, k ≤ 62 ∧ a.toNat = 2 ^ k) :
    (got st.log).Pairwise Apart ∧ ∀ b ∈ got st.log, b.ptr ≠ 0 → p.toNat ≤ b.ptr.toNat ∧ b.ptr.toNat + b.size.toNat ≤ p.toNat + cap.toNat := by
  obtain ⟨l, s, h1, h2, h3, _⟩ := C257_one_at_a_time h
  have hfit : ∀ x ∈ points l, Fit x.1 := by
    intro x hx
    obtain ⟨m, hm, e⟩ := List.mem_filterMap.1 hx
    cases m with
    | seen e' => cases e
    | point t o r =>
      injection e with e
      subst e
      obtain ⟨y, hy⟩ := h2 t
      have := (orderly_called hy).1 o r hm
      refine hc t o ?_
      rw [← h1]
      exact List.mem_filterMap.2 ⟨_, this, rfl⟩
  obtain ⟨stk, _, _, _, e4, e5, e6⟩ := alone_stack hb h3 rfl hfit
  obtain ⟨l', hp, hs⟩ := returned_subperm h2
  have hp := hp.map (·.2)
  have hs := hs.map (·.2)
  rw [h1, ← got_returned] at hp
  rw [← points_tagged] at hs
  refine ⟨?_, ?_⟩
  · refine (hp.pairwise_iff ?_).1 (e5.sublist hs)
    intro a b hab
    rcases hab with h | h | h | h
    · exact Or.inr (Or.inl h)
    · exact Or.inl h
    · exact Or.inr (Or.inr (Or.inr h))
    · exact Or.inr (Or.inr (Or.inl h))
  · intro b hbm hb0
    obtain ⟨x, hx, rfl⟩ := List.mem_map.1 (hs.subset (hp.mem_iff.2 hbm))
    have := e6 x hx hb0
    omega

/-! ## Examples -/

/-- Two threads allocate at the same time; the second one has to wait for the first one. A third one cannot lock the mutex. -/
def busy : List (Act StackOp) :=
  [.call 0 (.allocate 8 8), .call 1 (.allocate 16 16), .run 0, .run 1, .call 2 (.allocate 1 1), .fails 2] ++ List.replicate 5 (.run 0) ++ [.run 1] ++
    List.replicate 5 (.run 0) ++ List.replicate 11 (.run 1) ++ [.run 0, .run 1]

example : ((State.start (words ⟨0x1000, 0, 64, 0⟩)).runs stack busy).map (·.log) = .ok [.call 0 (.allocate 8 8), .call 1 (.allocate 16 16), .call 2 (.allocate 1 1),
    .threw 2, .ret 0 ⟨0x1000, 8⟩, .ret 1 ⟨0x1010, 16⟩] := by decide +kernel

example : ((State.start (words ⟨0x1000, 0, 64, 0⟩)).runs stack busy).map (·.cells) = .ok (words ⟨0x1000, 32, 64, 1⟩) := by decide +kernel

/-- A thread frees a block that was not the last one: an assertion of the stack allocator fails. -/
example : (match (State.start (words ⟨0x1000, 0, 64, 0⟩)).runs stack (busy ++ [.call 0 (.free 0x1000 8 8)] ++ List.replicate 6 (.run 0)) with | .ok _ => none | .error f => some f) =
    some .assertion := by decide +kernel

end Tm.Lock
