import Verif.Async.MultiSane

/-!
# Waiting for several works

The functions are those of `Verif.Async.Multi`: `waitMultiple σ fuel handles true limit` is `tma_wait_all` or `tma_wait_all_for`, and
`waitMultiple σ fuel handles false limit` is `tma_wait_any` or `tma_wait_any_for`. `σ` says what the other threads do, `fuel` bounds the time
that is looked at; there is no bound on it.
-/

namespace Tm.Async

/-! ## Specification -/

/-- The lives of works, as the threads of the pool make them: a work is created; it is put into a queue once; threads work on it; or the main
thread calls its procedure while it is in no queue. -/
inductive Life : Work → Prop where
  | create : Life {}
  | push {w : Work} : Life w → w.stage = .deferred → Life { w with stage := .queued, placed := true }
  | park {w : Work} : Life w → w.stage = .deferred → Life { w with stage := .parked, placed := true }
  | change {w : Work} (c : Change) : Life w → Life (w.apply c)
  | run {w : Work} : Life w → w.stage = .deferred → Life { w with stage := .over, runs := w.runs + 1, done := true, signaled := true, event := true }

/-- The states after calls that wait for handles `ok` allows. -/
inductive Reached (σ : Nat → Turn) (ok : Nat → List Int → Prop) : Pool → Prop where
  | start {p : Pool} : (∀ w ∈ p.works, Life w) → Reached σ ok p
  | call {p q : Pool} {fuel : Nat} {handles : List Int} {all : Bool} {limit : Limit} {r : WaitResult} : Reached σ ok p → ok p.works.length handles →
      waitMultiple σ fuel handles all limit p = .ok (.result r, q) → Reached σ ok q

/-- All handles. -/
def AnyHandles (_ : Nat) (_ : List Int) : Prop := True

/-- Handles that are invalid, which are those that are not positive, or of one of the `n` works, and of different ones. -/
def Different (n : Nat) (handles : List Int) : Prop :=
  (∀ id ∈ handles, id ≤ n) ∧ ∀ (j k : Nat) (id : Int), handles[j]? = some id → handles[k]? = some id → 0 < id → j = k

/-- The procedure of the work with this handle has returned. -/
def Returned (p : Pool) (id : Int) : Prop := ∃ w, p.works[(id - 1).toNat]? = some w ∧ w.done = true

/-! ## Proofs -/

theorem Life.honest {w : Work} (h : Life w) : WorkHonest w := by
  induction h with
  | create => exact ⟨by simp, by simp⟩
  | push _ hs ih => exact ⟨ih.1, by simp⟩
  | park _ hs ih => exact ⟨ih.1, by simp⟩
  | change c _ ih => exact apply_honest c _ ih
  | run _ _ _ => exact ⟨fun _ => rfl, fun _ => rfl⟩

theorem Life.sane {w : Work} (h : Life w) : WorkSane w := by
  induction h with
  | create => exact ⟨by simp, by simp, by simp⟩
  | push _ hs ih => exact ⟨ih.once, fun _ => ih.early (Or.inl hs), by simp⟩
  | park _ hs ih => exact ⟨ih.once, fun _ => ih.early (Or.inl hs), by simp⟩
  | change c _ ih => exact sane_stable c _ ih
  | run _ hs ih =>
    have := ih.early (Or.inl hs)
    exact ⟨by dsimp only; omega, by simp, fun _ => Or.inr ⟨rfl, rfl⟩⟩

theorem pollAll_keeps {σ : Nat → Turn} {fuel : Nat} {mem : List Int} {count : Nat} : ∀ (n i : Nat) (res : WaitResult) (p : Pool), PoolHonest p →
    Post (pollAll σ fuel mem count n i res p) (fun r => PoolHonest r.2) Any'
  | 0, _, _, _, _ => trivial
  | n + 1, i, res, p, h => by
    rw [pollAll]
    split
    · refine (waitChunk_honest h).bind fun x hx => ?_
      split
      · exact hx.1
      · exact pollAll_keeps n _ _ x.2 hx.1
    · exact h

theorem waitMultiple_honest {σ : Nat → Turn} {fuel : Nat} {mem : List Int} {all : Bool} {limit : Limit} {p : Pool} (h : PoolHonest p) :
    Post (waitMultiple σ fuel mem all limit p) (fun x => PoolHonest x.2 ∧ ∀ r, x.1 = .result r → r.ec = .ok →
      (all = true → (limit = .poll → mem.length ≤ maxWait) → ∀ j, j < mem.length → ∀ h, mem[j]? = some h → handleValid h = true → Done x.2 (slotOf h)) ∧
      (all = false → ∃ h, mem[r.index]? = some h ∧ handleValid h = true ∧ Done x.2 (slotOf h))) Any' := by
  rw [waitMultiple]
  refine (assert_post _).bind fun _ h0 => (assert_post _).bind fun _ _ => ?_
  have h0 : 0 < mem.length := by simpa using h0
  split
  · rename_i hl
    by_cases ha : all = true
    · rw [if_pos ha]
      by_cases hm : mem.length ≤ maxWait
      · refine (pollAll_honest hm _ 0 ⟨0, .ok⟩ p h (Or.inl rfl) h0).bind fun x hx => ⟨hx.1, ?_⟩
        intro r hr hok
        injection hr with hr
        subst hr
        exact ⟨fun _ _ => hx.2.2 hok, fun e => absurd (e.symm.trans ha) (by decide)⟩
      · refine (pollAll_keeps _ 0 ⟨0, .ok⟩ p h).bind fun x hx => ⟨hx, ?_⟩
        intro r _ _
        exact ⟨fun _ h => absurd (h hl) hm, fun e => absurd (e.symm.trans ha) (by decide)⟩
    · rw [if_neg ha]
      refine (pollAny_honest _ 0 .processed false ⟨0, .ok⟩ p h).bind fun x hx => ⟨hx.1, ?_⟩
      intro r hr hok
      injection hr with hr
      subst hr
      exact ⟨fun e => absurd e ha, fun _ => hx.2.2 hok⟩
  · split
    · rename_i hl hc
      refine (waitAllInfinite_honest _ true p h).bind fun x hx => ⟨hx.1, ?_⟩
      intro r hr hok
      injection hr with hr
      subst hr
      exact ⟨fun _ _ => hx.2.2 hok, fun e => absurd (e.symm.trans hc.2) (by decide)⟩
    · refine (waitChunk_honest (σ := σ) (fuel := fuel) (mem := mem) (off := 0) (n := mem.length) (all := all) (limit := limit) h).bind fun x hx => ⟨hx.1, ?_⟩
      intro r hr hok
      dsimp only at hr
      split at hr
      · rename_i hk
        injection hr with hr
        subst hr
        rcases hx.2.2 hok with h1 | h1 | h1
        · exact ⟨fun _ _ j hj h hm hv => h1.2.2 j hj h (by rw [Nat.zero_add]; exact hm) hv, fun e => absurd (e.symm.trans h1.2.1) (by decide)⟩
        · refine ⟨fun e => absurd (e.symm.trans h1.2.1) (by decide), fun _ => ?_⟩
          have := h1.2.2
          rw [Nat.zero_add] at this
          exact this
        · exact absurd (hk.symm.trans h1.1) (by decide)
      · cases hr

theorem Reached.honest {σ : Nat → Turn} {ok : Nat → List Int → Prop} {p : Pool} (h : Reached σ ok p) : PoolHonest p := by
  induction h with
  | start h => exact fun w hw => (h w hw).honest
  | @call p q fuel mem all limit r _ _ he ih =>
    have := waitMultiple_honest (σ := σ) (fuel := fuel) (mem := mem) (all := all) (limit := limit) ih
    rw [he] at this
    exact this.1

theorem Different.handles {n : Nat} {mem : List Int} (h : Different n mem) : Handles n mem := by
  refine ⟨?_, ?_⟩
  · intro id hm hv
    have h1 := h.1 id hm
    have h2 : 0 < id := by simpa [handleValid] using hv
    unfold slotOf handleIndex
    omega
  · intro j k id id' hj hk hv hv' e
    have h2 : 0 < id := by simpa [handleValid] using hv
    have h3 : 0 < id' := by simpa [handleValid] using hv'
    unfold slotOf handleIndex at e
    have : id = id' := by omega
    subst this
    exact h.2 j k id hj hk h2

theorem waitMultiple_sane {n : Nat} {σ : Nat → Turn} {fuel : Nat} {mem : List Int} {all : Bool} {limit : Limit} {p : Pool} {F : Fault → Prop}
    (h : Sane n p) (hh : Handles n mem) (h0 : (0 < mem.length ∧ mem.any handleValid = true) ∨ F .assertion)
    (hF : F .diverge ∨ (all = false ∧ limit = .poll ∧ 0 < fuel)) (hall : all = false ∨ limit = .infinite ∨ ∀ f, F f) :
    Post (waitMultiple σ fuel mem all limit p) (fun x => Sane n x.2) F := by
  have ha : ∀ b : Bool, (b = true ∨ F .assertion) → Post (assert b) (fun _ => b = true) F := by
    intro b hb
    cases b with
    | true => exact rfl
    | false => exact hb.resolve_left (by decide)
  rw [waitMultiple]
  refine (ha _ (h0.imp (fun h => by simpa using h.1) id)).bind fun _ hl0 => (ha _ (h0.imp (·.2) id)).bind fun _ _ => ?_
  have hl0 : 0 < mem.length := by simpa using hl0
  split
  · rename_i hl
    by_cases ha : all = true
    · rw [if_pos ha]
      have hF := (hall.resolve_left (by rw [ha]; decide)).resolve_left (by rw [hl]; decide)
      exact (pollAll_sane hh hF _ 0 _ p h).bind fun x hx => hx
    · rw [if_neg ha]
      exact (pollAny_sane hh (hF.imp id (·.2.2)) _ 0 _ _ _ p h (by omega) (by omega) (Or.inl ⟨rfl, hl0⟩)).bind fun x hx => hx
  · rename_i hl
    have hF : F .diverge := hF.elim id fun h => absurd h.2.1 hl
    split
    · exact (waitAllInfinite_sane hh hF _ true p h).bind fun x hx => hx
    · rename_i hc
      refine (waitChunk_sane hh h (Or.inl hF) ?_).bind fun x hx => hx
      rcases hall with h | h | h
      · exact Or.inl ⟨h, by omega⟩
      · cases all
        · exact Or.inl ⟨rfl, by omega⟩
        · exact absurd ⟨h, rfl⟩ hc
      · exact Or.inr h

theorem Reached.sane {σ : Nat → Turn} {p : Pool} (h : Reached σ Different p) : Sane p.works.length p := by
  induction h with
  | start h => exact ⟨rfl, fun w hw => (h w hw).sane⟩
  | @call p q fuel mem all limit r _ hd he ih =>
    have := waitMultiple_sane (σ := σ) (fuel := fuel) (all := all) (limit := limit) (F := fun _ => True) ih hd.handles (Or.inr trivial) (Or.inl trivial) (Or.inr (Or.inr fun _ => trivial))
    rw [he] at this
    have this : Sane p.works.length q := this
    rw [this.len]
    exact this

theorem waitMultiple_poll {σ : Nat → Turn} {fuel : Nat} {mem : List Int} {all : Bool} {p : Pool} :
    Post (waitMultiple σ fuel mem all .poll p) (fun x => ∃ r, x.1 = .result r) Any' := by
  rw [waitMultiple]
  refine (assert_post _).bind fun _ _ => (assert_post _).bind fun _ _ => ?_
  rw [if_pos rfl]
  have any : ∀ y : C (WaitResult × Pool), Post y (fun _ => True) Any' := fun y => by cases y <;> exact trivial
  exact (any _).bind fun x _ => ⟨x.1, rfl⟩

/-! ## Theorems -/

/-- C253: after `tma_wait_all` or `tma_wait_all_for` have returned `TM_OK` the procedures of all works have returned. Missing: more than 64
handles with the limit 0, see `C253_not_polled`; more than 64 handles with another limit, which takes a way that is not modelled; works for which
`tma_wait_single_for` ran out of time before, see `C253_not_after_timeout`. -/
theorem C253_all_partial {σ : Nat → Turn} {fuel : Nat} {handles : List Int} {limit : Limit} {p q : Pool} {index : Nat} (hp : Reached σ AnyHandles p)
    (hl : limit = .poll → handles.length ≤ 64) (h : waitMultiple σ fuel handles true limit p = .ok (.result ⟨index, .ok⟩, q)) :
    ∀ id ∈ handles, 0 < id → Returned q id := by
  intro id hm hv
  have := waitMultiple_honest (σ := σ) (fuel := fuel) (mem := handles) (all := true) (limit := limit) hp.honest
  rw [h] at this
  obtain ⟨j, hj, e⟩ := List.getElem_of_mem hm
  exact (this.2 _ rfl rfl).1 rfl hl j hj id (by rw [List.getElem?_eq_getElem hj, e]) (decide_eq_true hv)

/-- C254: after `tma_wait_any` or `tma_wait_any_for` have returned `TM_OK` the handle with the index that was returned is valid and the procedure
of its work has returned. Missing: more than 64 handles and a limit other than 0; works for which `tma_wait_single_for` ran out of time before. -/
theorem C254_any_partial {σ : Nat → Turn} {fuel : Nat} {handles : List Int} {limit : Limit} {p q : Pool} {index : Nat} (hp : Reached σ AnyHandles p)
    (h : waitMultiple σ fuel handles false limit p = .ok (.result ⟨index, .ok⟩, q)) : ∃ id, handles[index]? = some id ∧ 0 < id ∧ Returned q id := by
  have := waitMultiple_honest (σ := σ) (fuel := fuel) (mem := handles) (all := false) (limit := limit) hp.honest
  rw [h] at this
  obtain ⟨id, h1, h2, h3⟩ := (this.2 _ rfl rfl).2 rfl
  exact ⟨id, h1, of_decide_eq_true h2, h3⟩

/-- C255: whatever is waited for, with whatever limits, the procedure of each work is called at most once. Missing: the same handle twice in an
array, see `C255_not_once`; more than 64 handles and a limit other than 0, unless all are waited for without limit. -/
theorem C255_once_partial {σ : Nat → Turn} {p : Pool} (h : Reached σ Different p) : ∀ w ∈ p.works, w.runs ≤ 1 := fun w hw => (h.sane.all w hw).once

/-- C256: `tma_wait_all`, `tma_wait_any` and `tma_wait_any_for` of handles of which one is valid never fail an assertion, and access only the
arrays and slots there are; the only other end is that they do not return. Missing: `tma_wait_all_for`, see `C256_not_inside` and
`C256_not_asserted`; the same handle twice, see `C256_not_twice`; more than 64 handles and a limit other than 0, unless all are waited for without
limit. -/
theorem C256_no_fault_partial {σ : Nat → Turn} {fuel : Nat} {handles : List Int} {all : Bool} {limit : Limit} {p : Pool} {f : Fault} (hp : Reached σ Different p)
    (hd : Different p.works.length handles) (hv : ∃ id ∈ handles, 0 < id) (ha : all = true → limit = .infinite)
    (h : waitMultiple σ fuel handles all limit p = .error f) : f = .diverge := by
  obtain ⟨id, hm, hi⟩ := hv
  have := waitMultiple_sane (σ := σ) (fuel := fuel) (all := all) (limit := limit) (F := fun f => f = .diverge) hp.sane hd.handles
    (Or.inl ⟨List.length_pos_of_mem hm, List.any_eq_true.2 ⟨id, hm, decide_eq_true hi⟩⟩) (Or.inl rfl)
    (by cases all; exact Or.inl rfl; exact Or.inr (Or.inl (ha rfl)))
  rw [h] at this
  exact this

/-- C256: `tma_wait_any_for` with the limit 0 returns. -/
theorem C256_polls_partial {σ : Nat → Turn} {handles : List Int} {p : Pool} (hp : Reached σ Different p) (hd : Different p.works.length handles)
    (hv : ∃ id ∈ handles, 0 < id) : ∃ r q, waitMultiple σ 1 handles false .poll p = .ok (.result r, q) := by
  obtain ⟨id, hm, hi⟩ := hv
  have := waitMultiple_sane (σ := σ) (fuel := 1) (all := false) (limit := .poll) (F := fun _ => False) hp.sane hd.handles
    (Or.inl ⟨List.length_pos_of_mem hm, List.any_eq_true.2 ⟨id, hm, decide_eq_true hi⟩⟩) (Or.inr ⟨rfl, rfl, Nat.one_pos⟩) (Or.inl rfl)
  cases e : waitMultiple σ 1 handles false .poll p with
  | error f => rw [e] at this; exact this.elim
  | ok x =>
    obtain ⟨x, q⟩ := x
    cases x with
    | result r => exact ⟨r, q, rfl⟩
    | slow =>
      have := waitMultiple_poll (σ := σ) (fuel := 1) (mem := handles) (all := false) (p := p)
      rw [e] at this
      obtain ⟨r, hr⟩ := this
      cases hr

/-! ## Examples -/

/-- The other threads do nothing; works can be pushed. -/
def quietly : Nat → Turn := fun _ => {}

/-- Nothing can be pushed. -/
def full : Nat → Turn := fun _ => { place := .nowhere }

/-- All other threads do to the work in the slot `i`. -/
def complete (i : Nat) : List (Nat × Change) := [(i, .forward), (i, .take), (i, .finish), (i, .mark), (i, .set)]

/-- A number of works that are created. -/
def created (n : Nat) : Pool := ⟨List.replicate n {}, 0⟩

/-- The state after a call. -/
def after (x : C (Waited × Pool)) : Pool := match x with
  | .ok x => x.2
  | .error _ => created 0

theorem created_reached (σ : Nat → Turn) (ok : Nat → List Int → Prop) (n : Nat) : Reached σ ok (created n) :=
  .start fun w hw => by rw [(List.mem_replicate.1 hw).2]; exact .create

/-- A worker thread takes the first work after six accesses; the main thread does the other one, and waits for the first one, which is at its end after
fifteen accesses. -/
def helpful : Nat → Turn := fun k => { changes := if k = 6 then [(0, .take)] else if k = 15 then complete 0 else [] }

example : ∃ q, waitMultiple helpful 5 [1, 0, 2] true .infinite (created 2) = .ok (.result ⟨0, .ok⟩, q) ∧ ∀ w ∈ q.works, w.runs = 1 ∧ w.done = true := by
  refine ⟨after (waitMultiple helpful 5 [1, 0, 2] true .infinite (created 2)), ?_, ?_⟩ <;> decide +kernel

example : ∃ q, waitMultiple (fun k => { changes := if k = 7 then complete 1 else [] }) 9 [1, 0, 2] false .some (created 2) = .ok (.result ⟨2, .ok⟩, q) := by
  refine ⟨after (waitMultiple (fun k => { changes := if k = 7 then complete 1 else [] }) 9 [1, 0, 2] false .some (created 2)), ?_⟩
  decide +kernel

example : Different 2 [1, 0, 2, -3] := by
  refine ⟨by decide, ?_⟩
  intro j k id hj hk h
  match j, k with
  | 0, 0 | 1, 1 | 2, 2 | 3, 3 => rfl
  | 0, 1 | 0, 2 | 0, 3 | 1, 0 | 1, 2 | 1, 3 | 2, 0 | 2, 1 | 2, 3 | 3, 0 | 3, 1 | 3, 2 => simp at hj hk; omega
  | j + 4, _ => simp at hj
  | _, k + 4 => simp at hk

/-! ## What does not hold -/

theorem not_returned {p : Pool} {id : Int} (h : ((p.works[(id - 1).toNat]?).map (·.done)).getD false = false) : ¬ Returned p id := by
  rintro ⟨w, h1, h2⟩
  rw [h1] at h
  exact absurd (h.symm.trans h2) (by decide)

/-- 128 handles. -/
def many : List Int := (List.range 128).map fun (i : Nat) => (i : Int) + 1

/-- The last 64 works are finished when the main thread looks at them the second time. -/
def lastFirst : Nat → Turn := fun k => { changes := if k = 386 then ((List.range 64).map fun i => complete (64 + i)).flatten else [] }

/-- C253 does not hold in general: with 128 handles and the limit 0 `tma_wait_all_for` gives up on the first 64 works as soon as 65 are not finished,
and goes on with the last 64; if these are finished the result is `TM_OK`, although no procedure of the first 64 works was called. -/
theorem C253_not_polled : ∃ (σ : Nat → Turn) (handles : List Int) (p q : Pool) (index : Nat), Reached σ Different p ∧ Different p.works.length handles ∧
    waitMultiple σ 1 handles true .poll p = .ok (.result ⟨index, .ok⟩, q) ∧ ∃ id ∈ handles, 0 < id ∧ ¬ Returned q id := by
  refine ⟨lastFirst, many, created 128, after (waitMultiple lastFirst 1 many true .poll (created 128)), 64, created_reached _ _ _, ?_, ?_, 1, ?_, by decide,
    not_returned ?_⟩
  · refine ⟨?_, ?_⟩
    · decide +kernel
    · intro j k id hj hk _
      unfold many at hj hk
      rw [List.getElem?_map, Option.map_eq_some_iff] at hj hk
      obtain ⟨a, ha, ha'⟩ := hj
      obtain ⟨b, hb, hb'⟩ := hk
      have ea := List.getElem?_eq_some_iff.1 ha
      have eb := List.getElem?_eq_some_iff.1 hb
      obtain ⟨_, ea⟩ := ea
      obtain ⟨_, eb⟩ := eb
      rw [List.getElem_range] at ea eb
      omega
  · decide +kernel
  · decide +kernel
  · decide +kernel

/-- C253 and C254 do not hold in general: after `tma_wait_single_for` ran out of time the flag of a work says that it is finished (see
`C119_not_timeout`); `tma_wait_all` and `tma_wait_any` then return `TM_OK` although the procedure was not called. -/
theorem C253_not_after_timeout : ∃ (w : Work), w.stage = .queued ∧ w.runs = 0 ∧ w.done = false ∧
    ∀ all, ∃ q, waitMultiple quietly 2 [1] all .infinite ⟨[w], 0⟩ = .ok (.result ⟨0, .ok⟩, q) ∧ ¬ Returned q 1 := by
  refine ⟨{ stage := .queued, placed := true, signaled := true }, rfl, rfl, rfl, ?_⟩
  intro all
  refine ⟨after (waitMultiple quietly 2 [1] all .infinite ⟨[{ stage := .queued, placed := true, signaled := true }], 0⟩), ?_, not_returned ?_⟩ <;>
    cases all <;> decide +kernel

/-- C255 does not hold in general: `tma_wait_all` with the same handle twice calls the procedure twice if the queues are full. -/
theorem C255_not_once : ∃ q, waitMultiple full 2 [1, 1] true .infinite (created 1) = .ok (.result ⟨0, .ok⟩, q) ∧ ∃ w ∈ q.works, w.runs = 2 := by
  refine ⟨after (waitMultiple full 2 [1, 1] true .infinite (created 1)), ?_, ?_⟩ <;> decide +kernel

/-- C256 does not hold in general: `tma_wait_all_for` with one handle and the limit 0 reads behind the array, since it looks at 64 handles even if
there are less. -/
theorem C256_not_inside : waitMultiple quietly 1 [1] true .poll (created 1) = .error .oob := by decide +kernel

/-- C256 does not hold in general: the assertion of `tma_wait_all_for` looks at the event with the number of the handle, which is not set if a handle
before it is invalid. -/
theorem C256_not_asserted : ∃ σ, waitMultiple σ 1 [0, 1] true .some (created 1) = .error .invalid :=
  ⟨fun k => { changes := if k = 3 then complete 0 else [] }, by decide +kernel⟩

/-- C256 does not hold in general: `tma_wait_any` with the same handle twice fails an assertion if the work cannot be pushed at first. -/
theorem C256_not_twice : ∃ σ, waitMultiple σ 1 [1, 1] false .infinite (created 1) = .error .assertion :=
  ⟨fun k => { changes := if k = 6 then complete 0 else [], place := if k = 2 then .nowhere else .work }, by decide +kernel⟩

end Tm.Async
