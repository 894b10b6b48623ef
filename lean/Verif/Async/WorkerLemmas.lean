import Verif.Async.ExecLemmas

/-!
# Steps of the worker threads and of the dispatch thread keep the invariant
-/

namespace Tm.Async

theorem worker_ok_set {st st' : State} {i : Nat} {w' : WorkerPc} (h : ∀ w ∈ st.workers, WorkerOk st w)
    (k : Keeps st st') (hw' : WorkerOk st' w') : ∀ w ∈ st.workers.set i w', WorkerOk st' w := by
  intro w hw
  rcases List.mem_or_eq_of_mem_set hw with hw | rfl
  · exact k.worker (h w hw)
  · exact hw'

theorem Inv.workerMove {st : State} {i : Nat} {w : WorkerPc} (h : Inv st) (hi : st.workers[i]? = some w) (q : Queue)
    (w' : WorkerPc)
    (hq : ∀ s, q.ring.count (some s) + w'.waits s = st.work.ring.count (some s) + w.waits s)
    (hr : ∀ s, w'.runs s = w.runs s) (ht : ∀ s, w'.sets s = w.sets s) (hok : WorkerOk st w') :
    Inv { st with work := q, workers := st.workers.set i w' } := by
  have k : Keeps st { st with work := q, workers := st.workers.set i w' } := Keeps.of_eq rfl fun _ => id
  refine h.move rfl rfl (fun _ => rfl) (fun _ => id) ?_ (worker_ok_set h.workers k (k.worker hok)) (k.main h.main)
  intro s
  have h1 := sum_set (WorkerPc.waits s) _ _ _ w' hi
  have h2 := sum_set (WorkerPc.runs s) _ _ _ w' hi
  have h3 := sum_set (WorkerPc.sets s) _ _ _ w' hi
  have e1 : State.waits { st with work := q, workers := st.workers.set i w' } s = st.waits s := by
    have := hq s
    simp only [State.waits]
    omega
  have e2 : State.runs { st with work := q, workers := st.workers.set i w' } s = st.runs s := by
    have := hr s
    simp only [State.runs]
    omega
  have e3 : State.sets { st with work := q, workers := st.workers.set i w' } s = st.sets s := by
    have := ht s
    simp only [State.sets]
    omega
  rw [e1, e2, e3]
  exact h.slots s

theorem Inv.dispatcherMove {st : State} (h : Inv st) (work q : Queue) (array : List Nat) (d' : DispatcherPc) (b : Bool)
    (hwork : work.ring = st.work.ring)
    (hq : ∀ s, q.ring.count (some s) + array.count s + d'.waits s =
      st.dispatch.ring.count (some s) + st.array.count s + st.dispatcher.waits s) :
    Inv { st with work := work, dispatch := q, array := array, dispatcher := d', exited := b } := by
  have k : Keeps st { st with work := work, dispatch := q, array := array, dispatcher := d', exited := b } :=
    Keeps.of_eq rfl fun _ => id
  refine h.move rfl rfl (fun _ => rfl) (fun _ => id) ?_ (fun w hw => k.worker (h.workers w hw)) (k.main h.main)
  intro s
  have e1 : State.waits { st with work := work, dispatch := q, array := array, dispatcher := d', exited := b } s =
      st.waits s := by
    have := hq s
    simp only [State.waits, hwork]
    omega
  rw [e1]
  exact h.slots s

/-- The places of the slot in the queue and in the thread that takes something out of it. -/
theorem popStep_count {q q' : Queue} {p : PopStage} {r : PopStage ⊕ Option Nat} (h : popStep q p = .ok (q', r)) (s : Nat) :
    q'.ring.count (some s) + (match r with
      | .inl p' => p'.waits s
      | .inr none => 0
      | .inr (some t) => if t = s then 1 else 0) = q.ring.count (some s) + p.waits s := by
  cases p with
  | load =>
    simp only [popStep] at h
    cases h
    rfl
  | cas pos =>
    simp only [popStep] at h
    split at h <;> cases h <;> rfl
  | swap pos =>
    simp only [popStep] at h
    cases hr : rd q.ring pos with
    | error e => rw [hr] at h; exact nomatch h
    | ok v =>
      rw [hr] at h
      cases h
      have := count_set q.ring pos v none (some s) (rd_ok hr)
      cases v with
      | none => simpa [PopStage.waits] using this
      | some t => simpa [PopStage.waits] using this
  | release r =>
    simp only [popStep] at h
    cases h
    cases r <;> rfl

theorem execStep_slots {st st' : State} {e : Exec} {e' : Option Exec} (h : execStep st e = .ok (st', e')) :
    st'.workers = st.workers ∧ st'.main = st.main ∧ st'.work = st.work ∧ st'.dispatch = st.dispatch ∧
      st'.array = st.array ∧ st'.dispatcher = st.dispatcher ∧ st'.blocks = st.blocks ∧ st'.jobs = st.jobs ∧
      st'.exited = st.exited ∧ st'.slots.length = st.slots.length := by
  cases e with
  | start s =>
    simp only [execStep] at h
    cases hr : rd st.slots s with
    | error e => rw [hr] at h; exact nomatch h
    | ok x =>
      rw [hr, ok_bind] at h
      cases hj : x.job with
      | none => rw [hj] at h; exact nomatch h
      | some j => rw [hj] at h; cases h; simp [State.say]
  | running s j => cases h; simp [State.say]
  | mark s j =>
    simp only [execStep, State.update] at h
    cases hr : rd st.slots s with
    | error e => rw [hr] at h; exact nomatch h
    | ok x => rw [hr] at h; cases h; simp
  | set s =>
    simp only [execStep, State.update] at h
    cases hr : rd st.slots s with
    | error e => rw [hr] at h; exact nomatch h
    | ok x => rw [hr] at h; cases h; simp

theorem inv_worker {st st1 : State} {i : Nat} {w w' : WorkerPc} (h : Inv st) (hi : st.workers[i]? = some w)
    (hs : workerStep st w = .ok (some (st1, w'))) : Inv { st1 with workers := st.workers.set i w' } := by
  cases w with
  | wait =>
    simp only [workerStep] at hs
    split at hs
    · exact nomatch hs
    · cases hs
      exact h.workerMove hi _ _ (fun s => rfl) (fun s => rfl) (fun s => rfl) trivial
  | pop p =>
    simp only [workerStep] at hs
    cases hp : popStep st.work p with
    | error e => rw [hp] at hs; exact nomatch hs
    | ok r =>
      obtain ⟨q, r⟩ := r
      rw [hp, ok_bind] at hs
      have hc := popStep_count hp
      cases r with
      | inl p' =>
        cases hs
        exact h.workerMove hi _ _ hc (fun s => rfl) (fun s => rfl) trivial
      | inr r =>
        cases r with
        | none => cases hs; exact h.workerMove hi _ _ hc (fun s => rfl) (fun s => rfl) trivial
        | some t => cases hs; exact h.workerMove hi _ _ hc (fun s => rfl) (fun s => rfl) trivial
  | exec e =>
    have hok : ExecOk st e := h.workers _ (List.mem_of_getElem? hi)
    simp only [workerStep] at hs
    cases e with
    | start s =>
      simp only [execStep] at hs
      cases hr : rd st.slots s with
      | error e => rw [hr] at hs; exact nomatch hs
      | ok x =>
        rw [hr, ok_bind] at hs
        have hx := slot_of_getElem? (rd_ok hr)
        cases hj : x.job with
        | none => rw [hj] at hs; exact nomatch hs
        | some j =>
          rw [hj] at hs
          cases hs
          have hjj : (st.slot s).job = some j := by rw [hx]; exact hj
          have k : Keeps st { st.say (.started j) with workers := st.workers.set i (.exec (.running s j)) } :=
            Keeps.of_eq rfl fun _ => List.mem_cons_of_mem _
          refine h.start hjj rfl rfl rfl ?_ ?_ ?_ (fun _ => rfl) (worker_ok_set h.workers k hjj) (k.main h.main)
          all_goals
            intro t
            have h1 := sum_set (WorkerPc.waits t) _ _ _ (.exec (.running s j)) hi
            have h2 := sum_set (WorkerPc.runs t) _ _ _ (.exec (.running s j)) hi
            have h3 := sum_set (WorkerPc.sets t) _ _ _ (.exec (.running s j)) hi
            simp only [WorkerPc.waits, WorkerPc.runs, WorkerPc.sets, Exec.waits, Exec.runs, Exec.sets] at h1 h2 h3
            simp only [State.waits, State.runs, State.sets, State.say]
            omega
    | running s j =>
      cases hs
      have k : Keeps st { st.say (.finished j) with workers := st.workers.set i (.exec (.mark s j)) } :=
        Keeps.of_eq rfl fun _ => List.mem_cons_of_mem _
      refine h.finish rfl rfl rfl ?_ ?_ ?_ (fun _ => rfl)
        (worker_ok_set h.workers k ⟨hok, List.mem_cons_self⟩) (k.main h.main)
      all_goals
        intro t
        have h1 := sum_set (WorkerPc.waits t) _ _ _ (.exec (.mark s j)) hi
        have h2 := sum_set (WorkerPc.runs t) _ _ _ (.exec (.mark s j)) hi
        have h3 := sum_set (WorkerPc.sets t) _ _ _ (.exec (.mark s j)) hi
        simp only [WorkerPc.waits, WorkerPc.runs, WorkerPc.sets, Exec.waits, Exec.runs, Exec.sets] at h1 h2 h3
        simp only [State.waits, State.runs, State.sets, State.say]
        omega
    | mark s j =>
      simp only [execStep, State.update] at hs
      cases hr : rd st.slots s with
      | error e => rw [hr] at hs; exact nomatch hs
      | ok x =>
        rw [hr] at hs
        cases hs
        have hx := rd_ok hr
        have hxs := slot_of_getElem? hx
        have hsl := slot_set (st := st) (st' := { st with slots := st.slots.set s { x with signaled := true }, workers := st.workers.set i (.exec (.set s)) }) hx rfl
        have k : Keeps st { st with slots := st.slots.set s { x with signaled := true }, workers := st.workers.set i (.exec (.set s)) } := by
          refine ⟨?_, ?_, ?_, fun _ => id⟩ <;> intro t <;> rw [hsl] <;> by_cases hst : s = t
          all_goals first | (subst hst; simp [hxs]) | simp [hst]
        refine h.mark hx (by rw [← hxs]; exact hok.1) hok.2 rfl rfl rfl ?_ ?_ ?_ (fun _ => rfl)
          (worker_ok_set h.workers k trivial) (k.main h.main)
        all_goals
          intro t
          have h1 := sum_set (WorkerPc.waits t) _ _ _ (.exec (.set s)) hi
          have h2 := sum_set (WorkerPc.runs t) _ _ _ (.exec (.set s)) hi
          have h3 := sum_set (WorkerPc.sets t) _ _ _ (.exec (.set s)) hi
          simp only [WorkerPc.waits, WorkerPc.runs, WorkerPc.sets, Exec.waits, Exec.runs, Exec.sets] at h1 h2 h3
          simp only [State.waits, State.runs, State.sets]
          omega
    | set s =>
      simp only [execStep, State.update] at hs
      cases hr : rd st.slots s with
      | error e => rw [hr] at hs; exact nomatch hs
      | ok x =>
        rw [hr] at hs
        cases hs
        have hx := rd_ok hr
        have hxs := slot_of_getElem? hx
        have hsl := slot_set (st := st) (st' := { st with slots := st.slots.set s { x with event := true }, workers := st.workers.set i .wait }) hx rfl
        have k : Keeps st { st with slots := st.slots.set s { x with event := true }, workers := st.workers.set i .wait } := by
          refine ⟨?_, ?_, ?_, fun _ => id⟩ <;> intro t <;> rw [hsl] <;> by_cases hst : s = t
          all_goals first | (subst hst; simp [hxs]) | simp [hst]
        refine h.set hx rfl rfl rfl ?_ ?_ ?_ (fun _ => rfl)
          (worker_ok_set h.workers k trivial) (k.main h.main)
        all_goals
          intro t
          have h1 := sum_set (WorkerPc.waits t) _ _ _ .wait hi
          have h2 := sum_set (WorkerPc.runs t) _ _ _ .wait hi
          have h3 := sum_set (WorkerPc.sets t) _ _ _ .wait hi
          simp only [WorkerPc.waits, WorkerPc.runs, WorkerPc.sets, Exec.waits, Exec.runs, Exec.sets] at h1 h2 h3
          simp only [State.waits, State.runs, State.sets]
          omega

theorem inv_dispatcher {st st' : State} {mem : Bool} (h : Inv st) (hs : dispatcherStep st mem = .ok (some st')) :
    Inv st' := by
  unfold dispatcherStep at hs
  cases hd : st.dispatcher with
  | wait =>
    rw [hd] at hs
    dsimp only at hs
    split at hs
    · cases hs
      exact h.dispatcherMove st.work _ st.array _ st.exited rfl (fun s => by rw [hd]; rfl)
    · split at hs
      · cases hs
        exact h.dispatcherMove _ st.dispatch st.array _ st.exited rfl (fun s => by rw [hd]; rfl)
      · exact nomatch hs
  | pop p =>
    rw [hd] at hs
    dsimp only at hs
    cases hp : popStep st.dispatch p with
    | error e => rw [hp] at hs; exact nomatch hs
    | ok r =>
      obtain ⟨q, r⟩ := r
      rw [hp, ok_bind] at hs
      have hc := popStep_count hp
      have key : ∀ d' : DispatcherPc, (∀ s, q.ring.count (some s) + d'.waits s = st.dispatch.ring.count (some s) + p.waits s) →
          Inv { st with dispatch := q, dispatcher := d' } := by
        intro d' hd'
        refine h.dispatcherMove st.work q st.array d' st.exited rfl (fun s => ?_)
        have := hd' s
        have e : st.dispatcher.waits s = p.waits s := by rw [hd]; rfl
        omega
      cases r with
      | inl p' => cases hs; exact key _ hc
      | inr r =>
        cases r with
        | none => cases hs; exact key _ hc
        | some t => cases hs; exact key _ hc
  | append t =>
    rw [hd] at hs
    dsimp only [appendStep] at hs
    split at hs
    · split at hs
      · cases hs
        exact h.dispatcherMove st.work st.dispatch st.array st.dispatcher true rfl (fun _ => rfl)
      · exact nomatch hs
    · cases hs
      refine h.dispatcherMove st.work st.dispatch (st.array ++ [t]) .wait st.exited rfl (fun s => ?_)
      rw [hd]
      simp only [DispatcherPc.waits, List.count_append, List.count_cons, List.count_nil, beq_iff_eq]
      omega
  | ended => rw [hd] at hs; exact nomatch hs

end Tm.Async
