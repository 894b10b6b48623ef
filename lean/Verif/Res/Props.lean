import Verif.Res.Model

/-!
# Resource pointers

Properties C191 and C192.
-/

namespace Tm.Res

/-- The block that a value points to. -/
def block (c : Contents) : List Nat := c.data.toList

/-- The blocks that the variables are responsible for. -/
def varBlocks (s : State) : List Nat := s.vars.flatMap fun v => match v with | some c => block c | none => []

/-- The blocks that the program itself is responsible for. -/
def myBlocks (s : State) : List Nat := s.mine.flatMap block

/-- A variable exists and was not destructed. -/
def Alive (s : State) (i : Nat) : Prop := ∃ c, s.vars[i]? = some (some c)

/-- The operation uses only variables that were not destructed and values that the program has. An allocated value has a capacity. -/
def Possible (s : State) : Op → Prop
  | .allocate _ capacity => 0 < capacity
  | .destroyValue k => k < s.mine.length
  | .construct => True
  | .adopt k => k < s.mine.length
  | .moveConstruct i => Alive s i
  | .moveAssign i j => Alive s i ∧ Alive s j
  | .release i => Alive s i
  | .reset i => Alive s i
  | .resetTo i k => Alive s i ∧ k < s.mine.length
  | .swap i j => Alive s i ∧ Alive s j
  | .destruct i => Alive s i

/-- Each operation of the program is possible when it is reached. -/
def Program : State → List Op → Prop
  | _, [] => True
  | s, o :: os => Possible s o ∧ ∀ s', step s o = .ok s' → Program s' os

/-- Nothing is allocated and there are no variables. -/
def start : State := ⟨[], 0, [], []⟩

/-- Each allocated block has one owner, and values with a block have a capacity. -/
structure Inv (s : State) : Prop where
  owner : ∀ b, s.live.count b = (varBlocks s).count b + (myBlocks s).count b
  once : ∀ b, s.live.count b ≤ 1
  old : ∀ b ∈ s.live, b < s.fresh
  vars : ∀ c, some c ∈ s.vars → c.data ≠ none → 0 < c.capacity
  mine : ∀ c ∈ s.mine, c.data ≠ none → 0 < c.capacity

theorem count_set {α : Type} (f : α → List Nat) (b : Nat) (y : α) :
    ∀ {l : List α} {i : Nat} {x : α}, l[i]? = some x →
      ((l.set i y).flatMap f).count b + (f x).count b = (l.flatMap f).count b + (f y).count b := by
  intro l
  induction l with
  | nil => intro i x h; cases h
  | cons a l ih =>
    intro i x h
    cases i with
    | zero => cases h; rw [List.set_cons_zero, List.flatMap_cons, List.flatMap_cons, List.count_append, List.count_append]; omega
    | succ i =>
      have := ih h
      rw [List.set_cons_succ, List.flatMap_cons, List.flatMap_cons, List.count_append, List.count_append]
      omega

theorem count_erase {α : Type} (f : α → List Nat) (b : Nat) :
    ∀ {l : List α} {i : Nat} {x : α}, l[i]? = some x →
      ((l.eraseIdx i).flatMap f).count b + (f x).count b = (l.flatMap f).count b := by
  intro l
  induction l with
  | nil => intro i x h; cases h
  | cons a l ih =>
    intro i x h
    cases i with
    | zero => cases h; rw [List.eraseIdx_cons_zero, List.flatMap_cons, List.count_append]; omega
    | succ i =>
      have := ih h
      rw [List.eraseIdx_cons_succ, List.flatMap_cons, List.flatMap_cons, List.count_append, List.count_append]
      omega

theorem block_zero : block Contents.zero = [] := rfl

theorem var_ok {s : State} {i : Nat} {c : Contents} (h : s.vars[i]? = some (some c)) : var s i = .ok c := by
  unfold var
  rw [h]

theorem value_ok {s : State} {k : Nat} {c : Contents} (h : s.mine[k]? = some c) : value s k = .ok c := by
  unfold value
  rw [h]

/-- Destroying a value whose block is allocated. -/
theorem destroy_ok {live : List Nat} {c : Contents} (h1 : c.data ≠ none → 0 < c.capacity) (h2 : ∀ b ∈ block c, b ∈ live) :
    ∃ live', destroy live c = .ok (live', Contents.zero) ∧ (∀ b, live'.count b = live.count b - (block c).count b) ∧
      ∀ b ∈ live', b ∈ live := by
  cases c with
  | mk d sz cap =>
    cases d with
    | none => exact ⟨live, rfl, fun b => by simp [block], fun b h => h⟩
    | some x =>
      refine ⟨live.erase x, ?_, fun b => ?_, fun b h => List.mem_of_mem_erase h⟩
      · have hc := h1 (by simp)
        have hx : x ∈ live := h2 x (by simp [block])
        unfold destroy
        simp only [assert, free, hx]
        rw [if_pos (by simpa using hc), ok_bind, if_pos trivial, ok_bind]
      · rw [List.count_erase]
        simp only [block, Option.toList_some, List.count_singleton, beq_iff_eq]

theorem mem_set {α : Type} {l : List α} {i : Nat} {x y : α} (h : x ∈ l.set i y) : x ∈ l ∨ x = y := List.mem_or_eq_of_mem_set h

theorem swap_inv {s : State} (h : Inv s) {i j : Nat} (hi : Alive s i) (hj : Alive s j) : ∃ s', swapVars s i j = .ok s' ∧ Inv s' := by
  obtain ⟨c, hc⟩ := hi
  obtain ⟨d, hd⟩ := hj
  refine ⟨{ s with vars := (s.vars.set j (some c)).set i (some d) }, ?_, ?_⟩
  · unfold swapVars
    rw [var_ok hd, var_ok hc, ok_bind, ok_bind]
  · have e1 : (s.vars.set j (some c))[i]? = some (some c) := by
      rw [List.getElem?_set]
      by_cases e : j = i
      · subst e
        rw [if_pos rfl, if_pos (List.getElem?_eq_some_iff.1 hd).1]
      · rw [if_neg e, hc]
    refine ⟨fun b => ?_, h.once, h.old, fun x hx => ?_, h.mine⟩
    · have k1 := count_set (fun v : Option Contents => match v with | some c => block c | none => []) b (some c) hd
      have k2 := count_set (fun v : Option Contents => match v with | some c => block c | none => []) b (some d) e1
      have k3 := h.owner b
      simp only [varBlocks, myBlocks] at *
      omega
    · rcases mem_set hx with hx | hx
      · rcases mem_set hx with hx | hx
        · exact h.vars x hx
        · cases hx; exact h.vars _ (List.mem_of_getElem? hc)
      · cases hx; exact h.vars _ (List.mem_of_getElem? hd)

/-- Every possible operation is defined and keeps the invariant. -/
theorem step_inv {s : State} (h : Inv s) {o : Op} (p : Possible s o) : ∃ s', step s o = .ok s' ∧ Inv s' := by
  cases o with
  | allocate size capacity =>
    refine ⟨_, rfl, fun b => ?_, fun b => ?_, fun b hb => ?_, h.vars, fun c hc => ?_⟩
    · have := h.owner b
      simp only [varBlocks, myBlocks, List.flatMap_append, List.count_append, List.count_cons, List.flatMap_cons, List.flatMap_nil,
        block, Option.toList_some, List.append_nil, List.count_nil] at *
      omega
    · have k := h.once b
      simp only [List.count_cons, beq_iff_eq]
      by_cases e : s.fresh = b
      · have : b ∉ s.live := fun hb => absurd (h.old b hb) (by omega)
        rw [List.count_eq_zero.2 this, if_pos e]
        exact Nat.le_refl 1
      · rw [if_neg e]; omega
    · rcases List.mem_cons.1 hb with rfl | hb
      · exact Nat.lt_succ_self _
      · exact Nat.lt_succ_of_lt (h.old b hb)
    · rcases List.mem_append.1 hc with hc | hc
      · exact h.mine c hc
      · rw [List.mem_singleton] at hc
        subst hc
        exact fun _ => p
  | destroyValue k =>
    have hc : s.mine[k]? = some s.mine[k] := List.getElem?_eq_getElem p
    generalize s.mine[k] = c at hc
    have hm : c ∈ s.mine := List.mem_of_getElem? hc
    have hb : ∀ b ∈ block c, b ∈ s.live := fun b hb => by
      have k1 : 0 < (block c).count b := List.count_pos_iff.2 hb
      have k2 := h.owner b
      have k3 := count_erase block b hc
      refine List.count_pos_iff.1 ?_
      simp only [myBlocks] at *
      omega
    obtain ⟨live', e, l1, l2⟩ := destroy_ok (h.mine c hm) hb
    refine ⟨{ s with live := live', mine := s.mine.eraseIdx k }, ?_, fun b => ?_, fun b => ?_, fun b hb => h.old b (l2 b hb), h.vars,
      fun c hc => h.mine c (List.mem_of_mem_eraseIdx hc)⟩
    · simp only [step]
      rw [value_ok hc, ok_bind, e, ok_bind]
    · have k1 := h.owner b
      have k2 := count_erase block b hc
      have k3 := l1 b
      simp only [varBlocks, myBlocks] at *
      omega
    · have := h.once b
      have := l1 b
      simp only
      omega
  | construct =>
    refine ⟨_, rfl, fun b => ?_, h.once, h.old, fun c hc => ?_, h.mine⟩
    · have := h.owner b
      simp only [varBlocks, myBlocks, List.flatMap_append, List.flatMap_cons, List.flatMap_nil, block_zero, List.append_nil] at *
      omega
    · rcases List.mem_append.1 hc with hc | hc
      · exact h.vars c hc
      · rw [List.mem_singleton] at hc
        cases hc
        exact fun k => absurd rfl k
  | adopt k =>
    have hc : s.mine[k]? = some s.mine[k] := List.getElem?_eq_getElem p
    generalize s.mine[k] = c at hc
    refine ⟨{ s with vars := s.vars ++ [some c], mine := s.mine.eraseIdx k }, ?_, fun b => ?_, h.once, h.old, fun d hd => ?_,
      fun c hc => h.mine c (List.mem_of_mem_eraseIdx hc)⟩
    · simp only [step]
      rw [value_ok hc, ok_bind]
    · have k1 := h.owner b
      have k2 := count_erase block b hc
      simp only [varBlocks, myBlocks, List.flatMap_append, List.count_append, List.flatMap_cons, List.flatMap_nil, List.append_nil] at *
      omega
    · rcases List.mem_append.1 hd with hd | hd
      · exact h.vars d hd
      · rw [List.mem_singleton] at hd
        cases hd
        exact h.mine c (List.mem_of_getElem? hc)
  | moveConstruct i =>
    obtain ⟨c, hc⟩ := p
    refine ⟨{ s with vars := s.vars.set i (some Contents.zero) ++ [some c] }, ?_, fun b => ?_, h.once, h.old, fun d hd => ?_, h.mine⟩
    · simp only [step]
      rw [var_ok hc, ok_bind]
    · have k1 := h.owner b
      have k2 := count_set (fun v : Option Contents => match v with | some c => block c | none => []) b (some Contents.zero) hc
      simp only [varBlocks, myBlocks, List.flatMap_append, List.count_append, List.flatMap_cons, List.flatMap_nil, List.append_nil,
        block_zero, List.count_nil] at *
      omega
    · rcases List.mem_append.1 hd with hd | hd
      · rcases mem_set hd with hd | hd
        · exact h.vars d hd
        · cases hd; exact fun k => absurd rfl k
      · rw [List.mem_singleton] at hd
        cases hd
        exact h.vars c (List.mem_of_getElem? hc)
  | moveAssign i j => exact swap_inv h p.1 p.2
  | release i =>
    obtain ⟨c, hc⟩ := p
    refine ⟨{ s with vars := s.vars.set i (some Contents.zero), mine := s.mine ++ [c] }, ?_, fun b => ?_, h.once, h.old, fun d hd => ?_,
      fun d hd => ?_⟩
    · simp only [step]
      rw [var_ok hc, ok_bind]
    · have k1 := h.owner b
      have k2 := count_set (fun v : Option Contents => match v with | some c => block c | none => []) b (some Contents.zero) hc
      simp only [varBlocks, myBlocks, List.flatMap_append, List.count_append, List.flatMap_cons, List.flatMap_nil, List.append_nil,
        block_zero, List.count_nil] at *
      omega
    · rcases mem_set hd with hd | hd
      · exact h.vars d hd
      · cases hd; exact fun k => absurd rfl k
    · rcases List.mem_append.1 hd with hd | hd
      · exact h.mine d hd
      · rw [List.mem_singleton] at hd
        cases hd
        exact h.vars c (List.mem_of_getElem? hc)
  | reset i =>
    obtain ⟨c, hc⟩ := p
    have hb : ∀ b ∈ block c, b ∈ s.live := fun b hb => by
      have k1 : 0 < (block c).count b := List.count_pos_iff.2 hb
      have k2 := h.owner b
      have k3 := count_set (fun v : Option Contents => match v with | some c => block c | none => []) b none hc
      refine List.count_pos_iff.1 ?_
      simp only [varBlocks, List.count_nil] at *
      omega
    obtain ⟨live', e, l1, l2⟩ := destroy_ok (h.vars c (List.mem_of_getElem? hc)) hb
    refine ⟨{ s with live := live', vars := s.vars.set i (some Contents.zero) }, ?_, fun b => ?_, fun b => ?_,
      fun b hb => h.old b (l2 b hb), fun d hd => ?_, h.mine⟩
    · simp only [step]
      rw [var_ok hc, ok_bind, e, ok_bind]
      simp only [List.set_set]
    · have k1 := h.owner b
      have k2 := count_set (fun v : Option Contents => match v with | some c => block c | none => []) b (some Contents.zero) hc
      have k3 := l1 b
      simp only [varBlocks, myBlocks, block_zero, List.count_nil] at *
      omega
    · have := h.once b
      have := l1 b
      simp only
      omega
    · rcases mem_set hd with hd | hd
      · exact h.vars d hd
      · cases hd; exact fun k => absurd rfl k
  | resetTo i k =>
    obtain ⟨⟨c, hc⟩, p⟩ := p
    have hn : s.mine[k]? = some s.mine[k] := List.getElem?_eq_getElem p
    generalize s.mine[k] = n at hn
    have hb : ∀ b ∈ block c, b ∈ s.live := fun b hb => by
      have k1 : 0 < (block c).count b := List.count_pos_iff.2 hb
      have k2 := h.owner b
      have k3 := count_set (fun v : Option Contents => match v with | some c => block c | none => []) b none hc
      refine List.count_pos_iff.1 ?_
      simp only [varBlocks, List.count_nil] at *
      omega
    obtain ⟨live', e, l1, l2⟩ := destroy_ok (h.vars c (List.mem_of_getElem? hc)) hb
    refine ⟨{ s with live := live', vars := s.vars.set i (some n), mine := s.mine.eraseIdx k }, ?_, fun b => ?_, fun b => ?_,
      fun b hb => h.old b (l2 b hb), fun d hd => ?_, fun c hc => h.mine c (List.mem_of_mem_eraseIdx hc)⟩
    · simp only [step]
      rw [value_ok hn, var_ok hc, ok_bind, ok_bind, e, ok_bind]
      simp only [List.set_set]
    · have k1 := h.owner b
      have k2 := count_set (fun v : Option Contents => match v with | some c => block c | none => []) b (some n) hc
      have k3 := l1 b
      have k4 := count_erase block b hn
      simp only [varBlocks, myBlocks] at *
      omega
    · have := h.once b
      have := l1 b
      simp only
      omega
    · rcases mem_set hd with hd | hd
      · exact h.vars d hd
      · cases hd; exact h.mine n (List.mem_of_getElem? hn)
  | swap i j => exact swap_inv h p.1 p.2
  | destruct i =>
    obtain ⟨c, hc⟩ := p
    have hb : ∀ b ∈ block c, b ∈ s.live := fun b hb => by
      have k1 : 0 < (block c).count b := List.count_pos_iff.2 hb
      have k2 := h.owner b
      have k3 := count_set (fun v : Option Contents => match v with | some c => block c | none => []) b none hc
      refine List.count_pos_iff.1 ?_
      simp only [varBlocks, List.count_nil] at *
      omega
    obtain ⟨live', e, l1, l2⟩ := destroy_ok (h.vars c (List.mem_of_getElem? hc)) hb
    refine ⟨{ s with live := live', vars := s.vars.set i none }, ?_, fun b => ?_, fun b => ?_,
      fun b hb => h.old b (l2 b hb), fun d hd => ?_, h.mine⟩
    · simp only [step]
      rw [var_ok hc, ok_bind, e, ok_bind]
    · have k1 := h.owner b
      have k2 := count_set (fun v : Option Contents => match v with | some c => block c | none => []) b none hc
      have k3 := l1 b
      simp only [varBlocks, myBlocks, List.count_nil] at *
      omega
    · have := h.once b
      have := l1 b
      simp only
      omega
    · rcases mem_set hd with hd | hd
      · exact h.vars d hd
      · cases hd

theorem run_inv : ∀ {os : List Op} {s : State}, Inv s → Program s os → ∃ s', run s os = .ok s' ∧ Inv s'
  | [], s, h, _ => ⟨s, rfl, h⟩
  | o :: os, s, h, p => by
    obtain ⟨s1, e1, h1⟩ := step_inv h p.1
    obtain ⟨s2, e2, h2⟩ := run_inv h1 (p.2 s1 e1)
    refine ⟨s2, ?_, h2⟩
    simp only [run]
    rw [e1, ok_bind, e2]

theorem inv_start : Inv start := ⟨fun _ => rfl, fun _ => Nat.zero_le _, (fun _ h => by cases h), (fun _ h => by cases h), (fun _ h => by cases h)⟩

/-- C191: in no program a block is freed twice, freed without being allocated, or destroyed with an assertion that fails. -/
theorem C191_defined {os : List Op} (h : Program start os) : ∃ s, run start os = .ok s := by
  obtain ⟨s, e, -⟩ := run_inv inv_start h
  exact ⟨s, e⟩

/-- C191: at every time each allocated block is the responsibility of exactly one variable or of the program, and none of them refers to
a block that was freed. -/
theorem C191_one_owner {os : List Op} (h : Program start os) {s : State} (hr : run start os = .ok s) (b : Nat) :
    (varBlocks s ++ myBlocks s).count b = if b ∈ s.live then 1 else 0 := by
  obtain ⟨s', e, i⟩ := run_inv inv_start h
  rw [hr] at e
  cases e
  have k1 := i.owner b
  have k2 := i.once b
  rw [List.count_append]
  by_cases hb : b ∈ s.live
  · rw [if_pos hb]
    have := List.count_pos_iff.2 hb
    omega
  · rw [if_neg hb]
    have := List.count_eq_zero.2 hb
    omega

/-- C191: when all variables were destructed and the program has taken nothing out of them, nothing is left allocated. -/
theorem C191_no_leak {os : List Op} (h : Program start os) {s : State} (hr : run start os = .ok s) (hv : ∀ v ∈ s.vars, v = none)
    (hm : s.mine = []) : s.live = [] := by
  refine List.eq_nil_iff_forall_not_mem.2 fun b hb => ?_
  have k := C191_one_owner h hr b
  have e1 : varBlocks s = [] := List.flatMap_eq_nil_iff.2 fun v hv' => by rw [hv v hv']
  rw [if_pos hb, e1, myBlocks, hm] at k
  cases k

/-- A program that moves a resource around. -/
def sample : List Op :=
  [.allocate 3 4, .allocate 5 8, .adopt 0, .construct, .moveConstruct 0, .moveAssign 1 2, .moveAssign 1 1, .resetTo 1 0, .swap 0 1, .release 0,
    .adopt 0, .reset 1, .destruct 0, .destruct 3, .destruct 2, .destruct 1]

example : run start sample = .ok ⟨[], 2, [none, none, none, none], []⟩ := by decide +kernel

theorem program_cons {s s' : State} {o : Op} {os : List Op} (p : Possible s o) (e : step s o = .ok s') (h : Program s' os) :
    Program s (o :: os) := ⟨p, fun s'' e' => by rw [e] at e'; cases e'; exact h⟩

example : Program start sample := by
  refine program_cons (by unfold Possible; decide) rfl <| program_cons (by unfold Possible; decide) rfl <| program_cons (by unfold Possible; decide) rfl <| program_cons trivial rfl <|
    program_cons ⟨_, rfl⟩ rfl <| program_cons ⟨⟨_, rfl⟩, ⟨_, rfl⟩⟩ rfl <| program_cons ⟨⟨_, rfl⟩, ⟨_, rfl⟩⟩ rfl <|
    program_cons ⟨⟨_, rfl⟩, by decide⟩ rfl <| program_cons ⟨⟨_, rfl⟩, ⟨_, rfl⟩⟩ rfl <| program_cons ⟨_, rfl⟩ rfl <|
    program_cons (by unfold Possible; decide) rfl <| program_cons ⟨_, rfl⟩ rfl <| program_cons ⟨_, rfl⟩ rfl <| program_cons ⟨_, rfl⟩ rfl <|
    program_cons ⟨_, rfl⟩ rfl <| program_cons ⟨_, rfl⟩ rfl trivial

/-- C192, `tmu_contents`: a variable is true exactly if it is responsible for a block. Missing are the types with an error code, for
which it does not hold, see `C192_not_result`. -/
theorem C192_contents_partial {os : List Op} (h : Program start os) {s : State} (hr : run start os = .ok s) {i : Nat} {c : Contents}
    (hc : s.vars[i]? = some (some c)) : valid c = true ↔ ∃ b ∈ s.live, c.data = some b := by
  obtain ⟨s', e, iv⟩ := run_inv inv_start h
  rw [hr] at e
  cases e
  have hm := List.mem_of_getElem? hc
  constructor
  · intro hv
    unfold valid at hv
    rw [Bool.and_eq_true] at hv
    obtain ⟨b, hb⟩ := Option.isSome_iff_exists.1 hv.1
    refine ⟨b, ?_, hb⟩
    have k := iv.owner b
    have k2 := count_set (fun v : Option Contents => match v with | some c => block c | none => []) b none hc
    refine List.count_pos_iff.1 ?_
    simp only [varBlocks, block, hb, Option.toList_some, List.count_singleton_self, List.count_nil] at *
    omega
  · rintro ⟨b, -, hb⟩
    unfold valid
    rw [hb]
    have := iv.vars c hm (by rw [hb]; simp)
    simpa using this

/-- C192 does not hold for the types with an error code: after the resource was released (or moved away), the variable is still true,
since the error code zero means no error. -/
theorem C192_not_result :
    validResult (releaseResult ⟨⟨some 0, 3, 4⟩, 0⟩).2 = true ∧ (releaseResult ⟨⟨some 0, 3, 4⟩, 0⟩).2.contents.data = none := by
  decide

end Tm.Res
