import Verif.Async.Flood

/-! # What the thread pool does -/

namespace Tm.Async

/-! ## Schedules for the examples -/

/-- The main thread waits for a work until the time is over. -/
def timeout (i : Nat) : List Act := [.call (.waitFor i), .main false, .main true, .main false]

/-- Two works are pushed. One of them is executed by a worker thread, the other by the main thread in its wait. Both are
freed. -/
def usual : List Act :=
  push ++ push ++ w 0 4 ++ [.call (.wait 1)] ++ m 3 ++ [.report none 7] ++ m 3 ++ w 0 2 ++
    [.report (some 0) 50, .call (.progress 0), .call (.cancel 0), .ask (some 0)] ++ w 0 3 ++
    [.call (.wait 0)] ++ m 1 ++ [.call (.free 1)] ++ m 2 ++ [.call (.free 0)] ++ m 2

/-- What happens then. -/
def usualLog : List Event :=
  [.freed 0 0, .freed 1 1, .waited 0, .finished 0, .asked 0 true, .cancelled 0, .progress 0 50, .reported 0 50,
    .started 0, .waited 1, .finished 1, .reported 1 7, .started 1, .dispatched 1, .pushed 1 1, .dispatched 0,
    .pushed 0 0]

theorem usual_run : ∃ st, Run Careful 1 usual st ∧ st.log = usualLog ∧ st.main = .idle := by
  have h : ∃ st, runs careful (init 1) usual = some st ∧ st.log = usualLog ∧ st.main = .idle :=
    ⟨(runs careful (init 1) usual).get (by decide +kernel), by simp, by decide +kernel, by decide +kernel⟩
  obtain ⟨st, h1, h2⟩ := h
  exact ⟨st, run_careful (acts := []) .start h1, h2⟩

/-- The same run is a calm one. -/
theorem usual_calm : ∃ st, Run Calm 1 usual st ∧ st.log = usualLog :=
  usual_run.imp fun _ h => ⟨h.1.mono Careful.calm, h.2.1⟩

/-- A run that ends in a state with the given property. -/
theorem witness {n : Nat} {acts : List Act} {p : State → Bool}
    (h : (match run (init n) acts with
      | .ok (some st) => p st
      | _ => false) = true) : ∃ st, Run Any n acts st ∧ p st = true := by
  cases hr : run (init n) acts with
  | error e => rw [hr] at h; exact nomatch h
  | ok r =>
    rw [hr] at h
    cases r with
    | none => exact nomatch h
    | some st => exact ⟨st, run_steps hr, h⟩

/-! ## C118: a work is executed at most once -/

/-- C118 for programs in which no wait runs out of time and no work is freed while a worker thread, having executed it, has
still to signal its event: whatever the threads do in whatever order, the procedure of a work is called at most
once. -/
theorem C118_once_partial {n : Nat} {acts : List Act} {st : State} (h : Run Calm n acts st) : Once st.log :=
  (inv_run h).once

example : ∃ st, Run Calm 1 usual st ∧ st.log.count (.started 0) = 1 ∧ st.log.count (.started 1) = 1 := by
  obtain ⟨st, h, hl⟩ := usual_calm
  exact ⟨st, h, by rw [hl]; decide, by rw [hl]; decide⟩

/-- C118 does not hold in general. The work is executed while the main thread waits for it, for too short a time, and frees
it. Its slot is given to a second work. When the procedure of the first work is called, the first thread executes the
second work, which the second thread executes too. -/
theorem C118_not_once : ∃ n acts st, Run Any n acts st ∧ ¬ Once st.log := by
  obtain ⟨st, h, hp⟩ := witness (n := 2)
    (acts := push ++ w 0 5 ++ timeout 0 ++ [.call (.free 0)] ++ m 2 ++ push ++ w 0 1 ++ w 1 6)
    (p := fun st => decide (1 < st.log.count (.started 1))) (by decide +kernel)
  exact ⟨_, _, st, h, fun ho => absurd (ho 1) (by have := of_decide_eq_true hp; omega)⟩

/-! ## C119: when a wait has succeeded the work is done -/

/-- C119 for the same programs: when `tma_wait_single` or `tma_wait_single_for` returns `TM_OK` the procedure of the work has
returned. -/
theorem C119_finished_partial {n : Nat} {acts : List Act} {st : State} (h : Run Calm n acts st) : WaitsHold st.log :=
  (inv_run h).waits

example : ∃ st, Run Calm 1 usual st ∧ .waited 0 ∈ st.log ∧ .waited 1 ∈ st.log := by
  obtain ⟨st, h, hl⟩ := usual_calm
  exact ⟨st, h, by rw [hl]; decide, by rw [hl]; decide⟩

theorem not_waitsHold {log : List Event} {j : Nat} (h : .waited j ∈ log) (h' : .finished j ∉ log) : ¬ WaitsHold log := by
  intro hw
  obtain ⟨newer, older, rfl⟩ := List.append_of_mem h
  exact h' (List.mem_append_right _ (List.mem_cons_of_mem _ (hw _ _ _ rfl)))

/-- C119 does not hold in general. The first wait runs out of time. The second one succeeds although the procedure was never
called. -/
theorem C119_not_timeout : ∃ n acts st, Run Any n acts st ∧ ¬ WaitsHold st.log := by
  obtain ⟨st, h, hp⟩ := witness (n := 1) (acts := push ++ timeout 0 ++ [.call (.wait 0)] ++ m 1)
    (p := fun st => decide (.waited 0 ∈ st.log ∧ .finished 0 ∉ st.log)) (by decide +kernel)
  have := of_decide_eq_true hp
  exact ⟨_, _, st, h, not_waitsHold this.1 this.2⟩

/-- C119 does not hold in general even if no wait runs out of time. A thread has executed a work but has not signaled the
event yet. The work is waited for and freed, and its slot is given to a second work. The thread signals the event, and
the wait for the second work ends while its procedure is running. -/
theorem C119_not_signal : ∃ n acts st, Run Any n acts st ∧ .main true ∉ acts ∧ ¬ WaitsHold st.log := by
  obtain ⟨st, h, hp⟩ := witness (n := 2)
    (acts := push ++ w 0 8 ++ [.call (.wait 0)] ++ m 1 ++ [.call (.free 0)] ++ m 2 ++ push ++ w 0 1 ++ w 1 6 ++
      [.call (.wait 0)] ++ m 4)
    (p := fun st => decide (.waited 1 ∈ st.log ∧ .finished 1 ∉ st.log)) (by decide +kernel)
  have := of_decide_eq_true hp
  exact ⟨_, _, st, h, by decide, not_waitsHold this.1 this.2⟩

/-! ## C120: no work is lost -/

/-- C120 for programs in which no wait runs out of time, no work is freed while a worker thread has still to signal its
event, and no work is refused by the work queue, with at least one worker thread: when no thread can go on, every work
that was handed to the worker threads has been executed. -/
theorem C120_runs_partial {n : Nat} {acts : List Act} {st : State} (h : Run Calm n acts st) (hn : 0 < n)
    (hno : ∀ j, .overflowed j ∉ st.log) (hstuck : Stuck st) (j : Nat) (hj : .dispatched j ∈ st.log) :
    .finished j ∈ st.log := by
  refine stuck_finished (inv_run h) (queueInv_run h hno) ?_ hstuck j hj
  intro h0
  have := run_workers h
  rw [h0] at this
  simp at this
  omega

/-- As long as at most 256 calls of `tma_push_async_work` and `tma_dispatch_async_work` were made the work queue refuses no
work, whatever else the program does and in whatever order the threads do it. -/
theorem C120_few_partial {n : Nat} {acts : List Act} {st : State} (h : Run Any n acts st)
    (hf : (acts.filter Act.dispatches).length ≤ 256) (j : Nat) : .overflowed j ∉ st.log :=
  (few_run h hf).1 j

/-- No thread can go on if each of them waits. -/
theorem stuck_of {st : State} (h1 : st.main = .idle) (h2 : ∀ w ∈ st.workers, w = .wait) (h3 : st.work.readSem = 0)
    (h4 : st.dispatcher = .ended ∨ (st.dispatcher = .wait ∧ st.dispatch.readSem = 0 ∧ st.array = [])) : Stuck st := by
  intro a ha
  unfold step
  split
  · rfl
  cases a with
  | call op => simp [Act.proceeds] at ha
  | main timeout => simp [mainStep, h1]
  | worker i =>
    dsimp only
    cases hw : st.workers[i]? with
    | none => rfl
    | some w =>
      rw [h2 w (List.mem_of_getElem? hw)]
      simp [workerStep, h3]
  | dispatcher mem =>
    dsimp only
    unfold dispatcherStep
    rcases h4 with h4 | ⟨h4, h5, h6⟩
    · rw [h4]
    · rw [h4]; simp [h5, h6]
  | report t v => simp [Act.proceeds] at ha
  | ask t => simp [Act.proceeds] at ha

/-- In the end the worker thread finds out that the work, which the main thread has executed, is gone. -/
theorem usual_stuck : ∃ st, Run Calm 1 (usual ++ w 0 5) st ∧ Stuck st ∧ st.log = usualLog := by
  have h : ∃ st, runs careful (init 1) (usual ++ w 0 5) = some st ∧ st.log = usualLog ∧ st.main = .idle ∧
      st.workers = [.wait] ∧ st.work.readSem = 0 ∧ st.dispatcher = .wait ∧ st.dispatch.readSem = 0 ∧ st.array = [] :=
    ⟨(runs careful (init 1) (usual ++ w 0 5)).get (by decide +kernel), by simp, by decide +kernel, by decide +kernel,
      by decide +kernel, by decide +kernel, by decide +kernel, by decide +kernel, by decide +kernel⟩
  obtain ⟨st, h1, h2, h3, h4, h5, h6, h7, h8⟩ := h
  exact ⟨st, (run_careful (acts := []) .start h1).mono Careful.calm,
    stuck_of h3 (by rw [h4]; simp) h5 (.inr ⟨h6, h7, h8⟩), h2⟩

example : ∃ st, Run Calm 1 (usual ++ w 0 5) st ∧ (∀ j, .overflowed j ∉ st.log) ∧ Stuck st ∧ .dispatched 1 ∈ st.log := by
  obtain ⟨st, h, hs, hl⟩ := usual_stuck
  exact ⟨st, h, by rw [hl]; intro j; simp [usualLog], hs, by rw [hl]; decide⟩

example : ∃ st, Run Any 1 usual st ∧ (usual.filter Act.dispatches).length = 2 := by
  obtain ⟨st, h, -⟩ := usual_run
  exact ⟨st, h.mono fun _ _ _ => trivial, by decide⟩

/-- C120 does not hold in general. The last of 257 works is put into the dispatch queue. The dispatch thread ends when it
could put this work into the work queue. The work is never executed. -/
theorem C120_not_runs : ∃ acts st, Run Calm 1 acts st ∧ Stuck st ∧ .dispatched 256 ∈ st.log ∧ .started 256 ∉ st.log := by
  obtain ⟨st, h1, h⟩ := flood_run
  obtain ⟨h2, h3, h4, h5, h6⟩ := of_decide_eq_true h
  exact ⟨flood, st, steps_of_runs (fun _ _ => calm_of) h1, stuck_of h2 (by rw [h3]; simp) h4 (.inl h5), h6⟩

/-! ## C121: calls return -/

/-- Where no careful step can be made no step can be made, unless the main thread waits with a limit of time. -/
theorem stuck_of_careful {st : State} (hi : Inv st) (hb : BlockInv st) (hq : QueueInv st) (hc : CareInv st)
    (hm : ∀ s, st.main ≠ .block s true)
    (h : ∀ a, a.proceeds = true → Careful st a → step st a = .ok none) : Stuck st := by
  have hworker : ∀ i, Careful st (.worker i) := fun i => ⟨⟨nofun, nofun⟩, nofun, nofun⟩
  have hnone : ∀ e, .exec e ∉ st.workers := by
    intro e he
    obtain ⟨i, hi'⟩ := List.mem_iff_getElem?.mp he
    have h1 := h (.worker i) rfl (hworker i)
    unfold step at h1
    rw [hq.running, if_neg (by simp)] at h1
    dsimp only at h1
    rw [hi'] at h1
    dsimp only at h1
    obtain ⟨r, hr, h1⟩ := bind_ok h1
    simp only [workerStep] at hr
    obtain ⟨⟨st2, e2⟩, -, hr⟩ := bind_ok hr
    dsimp only at hr
    split at hr <;> (cases hr; exact nomatch h1)
  have hmain := h (.main false) rfl ⟨⟨nofun, fun s _ _ _ => hnone _⟩, nofun, nofun⟩
  intro a ha
  cases a with
  | main timeout =>
    cases timeout with
    | false => exact hmain
    | true =>
      have : step st (.main true) = step st (.main false) := by
        unfold step
        rw [hq.running, if_neg (by simp), if_neg (by simp)]
        show mainStep st true = mainStep st false
        unfold mainStep
        cases hmm : st.main with
        | block s timed =>
          cases timed with
          | true => exact absurd hmm (hm s)
          | false => rfl
        | _ => rfl
      rw [this]
      exact hmain
  | worker i => exact h _ ha (hworker i)
  | dispatcher mem => exact h _ ha ⟨⟨nofun, nofun⟩, nofun, nofun⟩
  | call op => simp [Act.proceeds] at ha
  | report t v => simp [Act.proceeds] at ha
  | ask t => simp [Act.proceeds] at ha

/-- C121 for careful programs with at least one worker thread and at most 256 calls that hand work to it: however the
threads go on, they go on for a bounded number of steps, and they can go on until the main thread has returned from the
library, or waits with a limit of time. -/
theorem C121_returns_partial {n : Nat} {acts : List Act} {st : State} (h : Run Careful n acts st) (hn : 0 < n)
    (hf : (acts.filter Act.dispatches).length ≤ 256) :
    ∃ bound, ∀ more st', Steps Careful st more st' → (∀ a ∈ more, a.proceeds = true) →
      more.length ≤ bound ∧ (st'.main = .idle ∨ (∃ s, st'.main = .block s true) ∨
        ∃ a st'', a.proceeds = true ∧ Careful st' a ∧ step st' a = .ok (some st'')) := by
  refine ⟨st.todo, fun more st' hs hm => ?_⟩
  have hall := steps_trans h hs
  have hmore : (more.filter Act.dispatches).length = 0 := by
    rw [List.length_eq_zero_iff, List.filter_eq_nil_iff]
    intro a ha
    have := hm a ha
    cases a <;> first | (simp [Act.proceeds] at this; done) | simp [Act.dispatches]
  have hno : Smooth st'.log := (few_run hall (by rw [List.filter_append, List.length_append]; omega)).1
  have hi := inv_run (hall.mono Careful.calm)
  have hq := queueInv_run hall hno
  have hb := (handleInv_run hall).block
  have hc := care_run hall hno
  refine ⟨by have := todo_steps h hs hm hno; omega, ?_⟩
  by_cases hblock : ∃ s, st'.main = .block s true
  · exact .inr (.inl hblock)
  by_cases hstep : ∃ a st'', a.proceeds = true ∧ Careful st' a ∧ step st' a = .ok (some st'')
  · exact .inr (.inr hstep)
  left
  have hstuck : Stuck st' := by
    refine stuck_of_careful hi hb hq hc (fun s hs => hblock ⟨s, hs⟩) ?_
    intro a ha hca
    obtain ⟨r, hr⟩ := step_total hi hb hq hc a
    cases r with
    | none => exact hr
    | some st'' => exact absurd ⟨a, st'', ha, hca, hr⟩ hstep
  refine (stuck_idle hi hq ?_ hstuck).2.1
  intro h0
  have := run_workers hall
  rw [h0] at this
  simp at this
  omega

/-- Two works are pushed, and the main thread waits for the first one, which a worker thread executes. -/
def waits : List Act := push ++ push ++ w 0 6 ++ [.call (.wait 0)] ++ m 2

theorem waits_run : ∃ st, Run Careful 1 waits st ∧ st.main = .block 0 false := by
  have h : ∃ st, runs careful (init 1) waits = some st ∧ st.main = .block 0 false :=
    ⟨(runs careful (init 1) waits).get (by decide +kernel), by simp, by decide +kernel⟩
  obtain ⟨st, h1, h2⟩ := h
  exact ⟨st, run_careful (acts := []) .start h1, h2⟩

example : ∃ st, Run Careful 1 waits st ∧ st.main ≠ .idle ∧ (waits.filter Act.dispatches).length ≤ 256 := by
  obtain ⟨st, h, hm⟩ := waits_run
  exact ⟨st, h, by rw [hm]; nofun, by decide⟩

/-- C121 does not hold in general. A wait for a work that was not handed to the worker threads accesses the work queue at a
negative position. -/
theorem C121_not_deferred : run (init 1) ([.call (.push true true), .call (.wait 0)] ++ m 2) = .error .oob := by
  decide +kernel

/-! ## C122: slots are used again -/

/-- C122 for the first 256 works, and if memory can be allocated, for all but the last ones that a handle could represent:
a work can be pushed. -/
theorem C122_push_partial {n : Nat} {acts : List Act} {st : State} {deferred mem : Bool} (h : Run Any n acts st)
    (hidle : st.main = .idle) (hrun : st.exited = false) (hp : mem = true ∨ pushes st.log < 256)
    (hf : pushes st.log < 2147483392) :
    ∃ st', step st (.call (.push deferred mem)) = .ok (some st') ∧ ∃ i j, st'.log = .pushed i j :: st.log := by
  obtain ⟨st', h1, i, h2⟩ := pushCall_success (deferred := deferred) (handleInv_run h).block (countInv_run h) hp hf
  refine ⟨st', ?_, i, _, h2⟩
  unfold step
  rw [hrun, if_neg (by simp)]
  dsimp only
  rw [if_pos hidle]
  simp only [callStep]
  rw [h1]
  rfl

example : ∃ st, Run Any 1 usual st ∧ st.main = .idle ∧ st.exited = false ∧ pushes st.log = 2 := by
  obtain ⟨st, h, hp⟩ := witness (n := 1) (acts := usual)
    (p := fun st => decide (st.main = .idle ∧ st.exited = false ∧ pushes st.log = 2)) (by decide +kernel)
  exact ⟨st, h, of_decide_eq_true hp⟩

/-- A work is pushed and freed. -/
def cycle : List Act := [.call (.push true false), .call (.free 0)] ++ m 2

set_option maxRecDepth 20000 in
/-- C122 does not hold in general. When 256 works were pushed and freed one after the other, none is in use, but no work can
be pushed without further memory. -/
theorem C122_not_reuse : ∃ acts st st', Run Any 1 acts st ∧ (∀ i, ¬ Live st.log i) ∧
    step st (.call (.push true false)) = .ok (some st') ∧ st'.log = .rejected .enomem :: st.log := by
  obtain ⟨st, h, hp⟩ := witness (n := 1) (acts := (List.replicate 256 cycle).flatten)
    (p := fun st => st.slots.all (fun s => s.job == none) &&
      (match step st (.call (.push true false)) with
        | .ok (some st') => decide (st'.log = .rejected .enomem :: st.log)
        | _ => false)) (by decide +kernel)
  rw [Bool.and_eq_true] at hp
  refine ⟨(List.replicate 256 cycle).flatten, st, ?_⟩
  cases hs : step st (.call (.push true false)) with
  | error e => rw [hs] at hp; exact nomatch hp.2
  | ok r =>
    cases r with
    | none => rw [hs] at hp; exact nomatch hp.2
    | some st' =>
      refine ⟨st', h, ?_, rfl, ?_⟩
      · rintro i ⟨j, hj⟩
        have hj := ((handleInv_run h).current i j).mp hj
        have hmem := slot_some hj
        have := List.all_eq_true.mp hp.1 _ (List.mem_of_getElem? (rd_ok hmem))
        rw [hj] at this
        exact nomatch this
      · have := hp.2
        rw [hs] at this
        exact of_decide_eq_true this

/-! ## C123: handles of works that exist are different -/

/-- C123: whatever a program does and in whatever order the threads do it, the handle of a new work is not the handle of a
work that was not freed. -/
theorem C123_fresh {n : Nat} {acts : List Act} {st : State} (h : Run Any n acts st) : HandlesFresh st.log :=
  (handleInv_run h).fresh

/-- A handle represents one work only. -/
theorem C123_one {n : Nat} {acts : List Act} {st : State} (h : Run Any n acts st) {i j k : Nat} (hj : Current st.log i j)
    (hk : Current st.log i k) : j = k := by
  have h1 := ((handleInv_run h).current i j).mp hj
  have h2 := ((handleInv_run h).current i k).mp hk
  rw [h1] at h2
  exact Option.some.inj h2

example : ∃ st, Run Any 1 (usual ++ push) st ∧ Current st.log 0 2 ∧ .pushed 0 0 ∈ st.log := by
  obtain ⟨st, h, hp⟩ := witness (n := 1) (acts := usual ++ push)
    (p := fun st => decide ((st.slot 0).job = some 2 ∧ .pushed 0 0 ∈ st.log)) (by decide +kernel)
  have := of_decide_eq_true hp
  exact ⟨st, h, ((handleInv_run h).current 0 2).mpr this.1, this.2⟩

/-! ## C124: freeing a work -/

/-- C124 for programs in which no wait runs out of time and no work is freed while a worker thread has still to signal its
event: when a work was freed its procedure has returned if it was ever called, and is not called afterwards. -/
theorem C124_free_partial {n : Nat} {acts : List Act} {st : State} (h : Run Calm n acts st) : FreesHold st.log :=
  (inv_run h).frees

example : ∃ st, Run Calm 1 usual st ∧ .freed 0 0 ∈ st.log ∧ .freed 1 1 ∈ st.log := by
  obtain ⟨st, h, hl⟩ := usual_calm
  exact ⟨st, h, by rw [hl]; decide, by rw [hl]; decide⟩

/-- C124 does not hold in general: a work whose wait ran out of time is freed while its procedure is running. -/
theorem C124_not_free : ∃ n acts st, Run Any n acts st ∧ ¬ FreesHold st.log := by
  obtain ⟨st, h, hp⟩ := witness (n := 1) (acts := push ++ w 0 6 ++ timeout 0 ++ [.call (.free 0)] ++ m 2)
    (p := fun st => decide (.freed 0 0 ∈ st.log ∧ .started 0 ∈ st.log ∧ .finished 0 ∉ st.log ∧
      st.log.head? = some (.freed 0 0))) (by decide +kernel)
  obtain ⟨h1, h2, h3, h4⟩ := of_decide_eq_true hp
  refine ⟨_, _, st, h, fun hf => ?_⟩
  cases hl : st.log with
  | nil => rw [hl] at h4; exact nomatch h4
  | cons e older =>
    rw [hl] at h4
    cases h4
    have := (hf [] 0 0 older hl).1
    rw [hl] at h2 h3
    rcases List.mem_cons.mp h2 with h2 | h2
    · exact nomatch h2
    · exact h3 (List.mem_cons_of_mem _ (this h2))

/-- A work that waits to be executed cannot be freed: it is taken out of the queue, but then an assertion fails. -/
theorem C124_not_queued : run (init 1) (push ++ [.call (.free 0)] ++ m 3) = .error .assertion := by decide +kernel

/-! ## C125: progress and cancellation -/

/-- C125 for the same programs: `tma_get_progress` returns what the procedure of the work has reported last. -/
theorem C125_progress_partial {n : Nat} {acts : List Act} {st : State} (h : Run Calm n acts st) : ProgressHolds st.log :=
  (inv_run h).progress

/-- C125 for the same programs: `tma_is_cancelled` returns true if and only if `tma_cancel` was called for this work. -/
theorem C125_cancel_partial {n : Nat} {acts : List Act} {st : State} (h : Run Calm n acts st) : CancelHolds st.log :=
  (inv_run h).cancel

example : ∃ st, Run Calm 1 usual st ∧ .progress 0 50 ∈ st.log ∧ .asked 0 true ∈ st.log := by
  obtain ⟨st, h, hl⟩ := usual_calm
  exact ⟨st, h, by rw [hl]; decide, by rw [hl]; decide⟩

/-- A work is freed while its procedure is running, and its slot is given to a second work. -/
def reuse : List Act := push ++ w 0 6 ++ timeout 0 ++ [.call (.free 0)] ++ m 2 ++ [.call (.push true true)]

/-- C125 does not hold in general: what the procedure of the first work reports is taken for the progress of the second
one. -/
theorem C125_not_progress : ∃ n acts st, Run Any n acts st ∧ ¬ ProgressHolds st.log := by
  obtain ⟨st, h, hp⟩ := witness (n := 1) (acts := reuse ++ [.report (some 0) 9, .call (.progress 0)])
    (p := fun st => decide (st.log.head? = some (.progress 1 9) ∧ lastReport 1 st.log.tail = 0)) (by decide +kernel)
  obtain ⟨h1, h2⟩ := of_decide_eq_true hp
  refine ⟨_, _, st, h, fun hf => ?_⟩
  cases hl : st.log with
  | nil => rw [hl] at h1; exact nomatch h1
  | cons e older =>
    rw [hl] at h1 h2
    cases h1
    have := hf [] 1 9 older hl
    rw [List.tail_cons] at h2
    rw [h2] at this
    exact absurd this (by decide)

/-- C125 does not hold in general: the procedure of the first work is told that it was cancelled when the second one was. -/
theorem C125_not_cancel : ∃ n acts st, Run Any n acts st ∧ ¬ CancelHolds st.log := by
  obtain ⟨st, h, hp⟩ := witness (n := 1) (acts := reuse ++ [.call (.cancel 0), .ask (some 0)])
    (p := fun st => decide (st.log.head? = some (.asked 0 true) ∧ .cancelled 0 ∉ st.log)) (by decide +kernel)
  obtain ⟨h1, h2⟩ := of_decide_eq_true hp
  refine ⟨_, _, st, h, fun hf => ?_⟩
  cases hl : st.log with
  | nil => rw [hl] at h1; exact nomatch h1
  | cons e older =>
    rw [hl] at h1 h2
    cases h1
    exact h2 (List.mem_cons_of_mem _ ((hf [] 0 true older hl).mp rfl))

/-! ## C126: handles and error codes -/

/-- C126: the handle of a work is valid, gives the index it was made of and has no error code. -/
theorem C126_index (i : Int) (h : 0 ≤ i) (h' : i < 2147483647) :
    handleValid (indexHandle i) = true ∧ handleIndex (indexHandle i) = i ∧ handleError (indexHandle i) = 0 ∧
      indexHandle i ≤ 2147483647 := by
  have h0 : indexHandle i = i + 1 := rfl
  refine ⟨?_, ?_, ?_, ?_⟩
  · exact decide_eq_true (by omega)
  · unfold handleIndex; omega
  · unfold handleError; rw [if_neg (by omega)]
  · omega

/-- C126: the handle that is returned for an error is not valid and gives the error code. -/
theorem C126_error (ec : Int) (h : 0 < ec) (h' : ec ≤ 2147483647) :
    handleValid (errorHandle ec) = false ∧ handleError (errorHandle ec) = ec ∧ -2147483648 ≤ errorHandle ec := by
  have h0 : errorHandle ec = -(ec - 1) := rfl
  refine ⟨?_, ?_, ?_⟩
  · exact decide_eq_false (by omega)
  · unfold handleError; rw [if_pos (by omega)]; omega
  · omega

example : handleError (errorHandle 12) = 12 ∧ handleIndex (indexHandle 300) = 300 := by decide

/-! ## C127: no call goes wrong -/

/-- C127 for careful programs in which no work is refused by the work queue: no step of any thread fails. -/
theorem C127_no_fault_partial {n : Nat} {acts : List Act} {st : State} (h : Run Careful n acts st)
    (hno : ∀ j, .overflowed j ∉ st.log) (a : Act) : ∃ r, step st a = .ok r :=
  step_total (inv_run (h.mono Careful.calm)) (handleInv_run h).block (queueInv_run h hno) (care_run h hno) a

example : ∃ st, Run Careful 1 usual st ∧ (∀ j, .overflowed j ∉ st.log) := by
  obtain ⟨st, h, hl, -⟩ := usual_run
  exact ⟨st, h, by rw [hl]; intro j; simp [usualLog]⟩

/-- C127 does not hold in general: when a work whose wait ran out of time is freed before it is executed, a worker thread
calls a procedure that is not there. -/
theorem C127_not_procedure :
    run (init 1) (push ++ w 0 5 ++ timeout 0 ++ [.call (.free 0)] ++ m 2 ++ w 0 1) = .error .assertion := by
  decide +kernel

end Tm.Async
