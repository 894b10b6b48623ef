import Verif.Async.QueueLemmas

/-!
# The work queue over a run
-/

namespace Tm.Async

/-- No work was refused by the work queue. -/
def Smooth (log : List Event) : Prop := ∀ j, .overflowed j ∉ log

theorem Smooth.tail {e : Event} {log : List Event} (h : Smooth (e :: log)) : Smooth log :=
  fun j hj => h j (List.mem_cons_of_mem _ hj)

/-- The history only grows. -/
theorem step_log {st st' : State} {a : Act} (hb : BlockInv st) (h : step st a = .ok (some st')) :
    st'.log = st.log ∨ ∃ e, st'.log = e :: st.log := by
  rcases step_same h with h | ⟨d, m, -, h⟩ | ⟨s, taken, -, h⟩
  · rcases h.log with h | ⟨e, -, h⟩
    · exact .inl h
    · exact .inr ⟨e, h⟩
  · rcases pushCall_ok hb h with ⟨e, rfl⟩ | ⟨i, -, -, h, -⟩
    · exact .inr ⟨_, rfl⟩
    · exact .inr ⟨_, h⟩
  · obtain ⟨x, j, -, -, -, -, he⟩ := freeEnd_ok h
    exact .inr ⟨.freed s j, by rw [he]; rfl⟩

theorem pushFailed_log {st st' : State} {s : Nat} (h : pushFailed st .work s = .ok st') : ∃ j, .overflowed j ∈ st'.log := by
  unfold pushFailed at h
  obtain ⟨j, -, h⟩ := bind_ok h
  replace h : Except.ok _ = Except.ok _ := h
  cases h
  exact ⟨j, List.mem_cons_self⟩

/-- Steps of the main thread outside of pushing. -/
theorem QueueInv.skip {st st' : State} (h : QueueInv st) (h1 : st'.work = st.work) (h2 : st'.dispatch = st.dispatch)
    (h3 : st'.array = st.array) (h4 : st'.dispatcher = st.dispatcher) (h5 : st'.exited = st.exited)
    (h6 : st'.workers = st.workers) (h7 : st'.main.stage = st.main.stage) (h8 : ∀ s p, st'.main ≠ .push .dispatch s p) :
    QueueInv st' :=
  ⟨by rw [h1, h6, h7]; exact h.work, by rw [h2]; exact h.dispatch, by rw [h3]; exact h.array, by rw [h4]; exact h.dispatcher,
    by rw [h5]; exact h.running, h8⟩

theorem queueInv_push {st st' : State} {s : Nat} {p : PushStage} (h : QueueInv st) (hm : st.main = .push .work s p)
    (hs : pushStep st .work s p = .ok (some st')) (hno : Smooth st'.log) : QueueInv st' := by
  have hw := h.work
  rw [hm] at hw
  replace hw : WorkOk st.work st.workers (some p) := hw
  have hread := hw.read
  have hwrite := hw.write
  have hheld := hw.held
  cases p with
  | wait =>
    simp only [pushStep] at hs
    split at hs
    · obtain ⟨st1, h1, hs⟩ := bind_ok hs
      cases hs
      obtain ⟨j, hj⟩ := pushFailed_log h1
      exact absurd hj (hno j)
    · rename_i hne
      replace hne : st.work.writeSem ≠ 0 := hne
      cases hs
      refine ⟨?_, h.dispatch, h.array, h.dispatcher, h.running, nofun⟩
      refine ⟨hw.length, hw.readPos, hw.writePos, hread, ?_, hheld, nofun, hw.cas, hw.swap, nofun, hw.cell⟩
      show st.work.writeSem - 1 + 1 + st.work.written + (st.workers.map WorkerPc.held).sum = ringSize + st.work.taken
      replace hwrite : st.work.writeSem + 0 + st.work.written + (st.workers.map WorkerPc.held).sum = ringSize + st.work.taken := hwrite
      omega
  | load =>
    simp only [pushStep] at hs
    cases hs
    refine ⟨?_, h.dispatch, h.array, h.dispatcher, h.running, nofun⟩
    refine ⟨hw.length, hw.readPos, hw.writePos, hread, hwrite, hheld, nofun, hw.cas, hw.swap, ?_, hw.cell⟩
    intro pos hp
    cases hp
    show st.work.writePos < ringSize
    rw [hw.writePos]
    exact Nat.mod_lt _ (by decide)
  | cas pos =>
    simp only [pushStep] at hs
    split at hs
    · rename_i he
      replace he : st.work.writePos = pos := he
      cases hs
      refine ⟨?_, h.dispatch, h.array, h.dispatcher, h.running, nofun⟩
      refine ⟨hw.length, hw.readPos, ?_, ?_, ?_, hheld, ?_, hw.cas, hw.swap, nofun, ?_⟩
      · show next pos = (st.work.written + 1) % ringSize
        rw [← he, hw.writePos]
        unfold next
        simp only [ringSize]
        omega
      · show st.work.readSem + (st.workers.map WorkerPc.reading).sum + st.work.taken + 1 = st.work.written + 1
        replace hread : st.work.readSem + (st.workers.map WorkerPc.reading).sum + st.work.taken + 0 = st.work.written := hread
        omega
      · show st.work.writeSem + 0 + (st.work.written + 1) + (st.workers.map WorkerPc.held).sum = ringSize + st.work.taken
        replace hwrite : st.work.writeSem + 1 + st.work.written + (st.workers.map WorkerPc.held).sum = ringSize + st.work.taken := hwrite
        omega
      · intro pos' hp
        cases hp
        show pos = (st.work.written + 1 - 1) % ringSize
        rw [Nat.add_sub_cancel, ← hw.writePos, he]
      · intro pos' t hc
        rcases hw.cell pos' t hc with ⟨k, k1, k2, k3⟩ | hm
        · exact .inl ⟨k, k1, Nat.succ_lt_succ k2, k3⟩
        · exact .inr hm
    · cases hs
      refine ⟨?_, h.dispatch, h.array, h.dispatcher, h.running, nofun⟩
      refine ⟨hw.length, hw.readPos, hw.writePos, hread, hwrite, hheld, nofun, hw.cas, hw.swap, ?_, hw.cell⟩
      intro pos' hp
      cases hp
      show st.work.writePos < ringSize
      rw [hw.writePos]
      exact Nat.mod_lt _ (by decide)
  | put pos =>
    simp only [pushStep] at hs
    obtain ⟨r, hr, hs⟩ := bind_ok hs
    cases r with
    | some t =>
      dsimp only at hs
      obtain ⟨st1, h1, hs⟩ := bind_ok hs
      cases hs
      obtain ⟨j, hj⟩ := pushFailed_log h1
      exact absurd hj (hno j)
    | none =>
      cases hs
      have hr := rd_ok hr
      replace hread : st.work.readSem + (st.workers.map WorkerPc.reading).sum + st.work.taken + 1 = st.work.written := hread
      refine ⟨?_, h.dispatch, h.array, h.dispatcher, h.running, nofun⟩
      refine ⟨?_, hw.readPos, hw.writePos, hread, hwrite, hheld, nofun, hw.cas, hw.swap, nofun, ?_⟩
      · show (st.work.ring.set pos (some s)).length = ringSize
        rw [List.length_set]; exact hw.length
      · intro pos' t hc
        replace hc : (st.work.ring.set pos (some s))[pos']? = some (some t) := hc
        rw [List.getElem?_set] at hc
        by_cases hp : pos = pos'
        · left
          refine ⟨st.work.written - 1, ?_, ?_, ?_⟩
          · show st.work.taken ≤ _
            omega
          · show st.work.written - 1 + 0 < st.work.written
            omega
          · rw [← hw.put pos rfl, hp]
        · rw [if_neg hp] at hc
          rcases hw.cell pos' t hc with ⟨k, k1, k2, k3⟩ | hm
          · exact .inl ⟨k, k1, Nat.lt_of_succ_lt k2, k3⟩
          · exact .inr hm
  | store pos =>
    simp only [pushStep] at hs
    obtain ⟨st1, h1, hs⟩ := bind_ok hs
    cases hs
    obtain ⟨x, hx, rfl⟩ := update_ok h1
    refine ⟨?_, h.dispatch, h.array, h.dispatcher, h.running, nofun⟩
    exact ⟨hw.length, hw.readPos, hw.writePos, hread, hwrite, hheld, nofun, hw.cas, hw.swap, nofun, hw.cell⟩
  | release =>
    simp only [pushStep] at hs
    obtain ⟨j, -, hs⟩ := bind_ok hs
    cases hs
    replace hread : st.work.readSem + (st.workers.map WorkerPc.reading).sum + st.work.taken + 1 = st.work.written := hread
    replace hwrite : st.work.writeSem + 0 + st.work.written + (st.workers.map WorkerPc.held).sum = ringSize + st.work.taken := hwrite
    have hsem : release st.work.readSem = st.work.readSem + 1 := by
      unfold release
      rw [if_pos (by omega)]
    refine ⟨?_, h.dispatch, h.array, h.dispatcher, h.running, nofun⟩
    refine ⟨hw.length, hw.readPos, hw.writePos, ?_, hwrite, hheld, nofun, hw.cas, hw.swap, nofun, hw.cell⟩
    show release st.work.readSem + (st.workers.map WorkerPc.reading).sum + st.work.taken + 0 = st.work.written
    omega

theorem queueInv_worker {st st1 : State} {i : Nat} {w w' : WorkerPc} (h : QueueInv st) (hi : st.workers[i]? = some w)
    (hs : workerStep st w = .ok (some (st1, w'))) : QueueInv { st1 with workers := st.workers.set i w' } := by
  have hread := h.work.read
  cases w with
  | wait =>
    simp only [workerStep] at hs
    split at hs
    · exact nomatch hs
    · rename_i hne
      cases hs
      refine ⟨?_, h.dispatch, h.array, h.dispatcher, h.running, h.main⟩
      have hw := h.work
      have r := sum_set WorkerPc.reading st.workers i _ (.pop .load) hi
      have d := sum_set WorkerPc.held st.workers i _ (.pop .load) hi
      simp only [WorkerPc.reading, WorkerPc.held, PopStage.reading, PopStage.held] at r d
      have hwrite := hw.write
      have hheld := hw.held
      refine ⟨hw.length, hw.readPos, hw.writePos, ?_, ?_, ?_, hw.put, ?_, ?_, hw.store, ?_⟩
      · show st.work.readSem - 1 + ((st.workers.set i (.pop .load)).map WorkerPc.reading).sum + st.work.taken +
          publishing st.main.stage = st.work.written
        omega
      · show st.work.writeSem + claiming st.main.stage + st.work.written +
          ((st.workers.set i (.pop .load)).map WorkerPc.held).sum = ringSize + st.work.taken
        omega
      · show ((st.workers.set i (.pop .load)).map WorkerPc.held).sum ≤ st.work.taken
        omega
      · intro pos hm
        rcases List.mem_or_eq_of_mem_set hm with hm | hm
        · exact hw.cas pos hm
        · exact nomatch hm
      · intro pos hm
        rcases List.mem_or_eq_of_mem_set hm with hm | hm
        · exact hw.swap pos hm
        · exact nomatch hm
      · intro pos s hc
        rcases hw.cell pos s hc with h | hm
        · exact .inl h
        · exact .inr (mem_set_of hi hm nofun)
  | pop p =>
    simp only [workerStep] at hs
    obtain ⟨⟨q, r⟩, h1, hs⟩ := bind_ok hs
    have := h.work.pop hi h1
    dsimp only at hs
    split at hs
    all_goals
      cases hs
      exact ⟨this, h.dispatch, h.array, h.dispatcher, h.running, h.main⟩
  | exec e =>
    simp only [workerStep] at hs
    obtain ⟨⟨st2, e2⟩, h1, hs⟩ := bind_ok hs
    obtain ⟨g1, g2, g3, g4, g5, g6, -, -, g7, -⟩ := execStep_slots h1
    dsimp only at hs
    split at hs
    all_goals
      cases hs
      refine ⟨?_, g4.trans h.dispatch, g5.trans h.array, g6.trans h.dispatcher, g7.trans h.running,
        fun s p => by show st1.main ≠ _; rw [g2]; exact h.main s p⟩
      show WorkOk st1.work _ st1.main.stage
      rw [g3, g2]
      exact h.work.move hi rfl rfl nofun nofun nofun

theorem queueInv_dispatcher {st st' : State} {mem : Bool} (h : QueueInv st)
    (hs : dispatcherStep st mem = .ok (some st')) : QueueInv st' := by
  unfold dispatcherStep at hs
  rw [h.dispatcher] at hs
  dsimp only at hs
  rw [h.dispatch, h.array] at hs
  simp [emptyQueue] at hs

theorem waitReturn_queue {st st' : State} {s : Nat} {ok : Bool} (h : waitReturn st s ok = .ok (some st')) :
    st'.work = st.work ∧ st'.dispatch = st.dispatch ∧ st'.array = st.array ∧ st'.dispatcher = st.dispatcher ∧
      st'.exited = st.exited ∧ st'.workers = st.workers ∧ st'.main = .idle := by
  unfold waitReturn at h
  obtain ⟨j, -, h⟩ := bind_ok h
  cases h
  exact ⟨rfl, rfl, rfl, rfl, rfl, rfl, rfl⟩

theorem queueInv_main {st st' : State} {timeout : Bool} (h : QueueInv st) (hs : mainStep st timeout = .ok (some st'))
    (hno : Smooth st'.log) : QueueInv st' := by
  have ret : ∀ {st1 : State} {s : Nat} {ok : Bool}, st1.work = st.work → st1.dispatch = st.dispatch →
      st1.array = st.array → st1.dispatcher = st.dispatcher → st1.exited = st.exited → st1.workers = st.workers →
      st.main.stage = none → waitReturn st1 s ok = .ok (some st') → QueueInv st' := by
    intro st1 s ok e1 e2 e3 e4 e5 e6 e7 hr
    obtain ⟨g1, g2, g3, g4, g5, g6, g7⟩ := waitReturn_queue hr
    exact h.skip (g1.trans e1) (g2.trans e2) (g3.trans e3) (g4.trans e4) (g5.trans e5) (g6.trans e6)
      (by rw [g7, e7]; rfl) (by rw [g7]; nofun)
  unfold mainStep at hs
  split at hs
  · exact nomatch hs
  · rename_i q s p hm
    cases q with
    | work => exact queueInv_push h hm hs hno
    | dispatch => exact absurd hm (h.main s p)
  · rename_i hm
    obtain ⟨x, -, hs⟩ := bind_ok hs
    split at hs
    · exact ret rfl rfl rfl rfl rfl rfl (by rw [hm]; rfl) hs
    · split at hs <;> (cases hs; exact h.skip rfl rfl rfl rfl rfl rfl (by rw [hm]; rfl) nofun)
  · rename_i hm
    obtain ⟨⟨st1, ok⟩, h1, hs⟩ := bind_ok hs
    obtain ⟨-, q, rfl, e1, e2, e3, e4, e5, e6, e7, e8, -⟩ := popSlot_ok h1
    have := h.work.steal e1 e2 e3 e4 e5 e6 e7 e8
    rw [hm] at this
    dsimp only at hs
    split at hs <;> (cases hs; exact ⟨this, h.dispatch, h.array, h.dispatcher, h.running, nofun⟩)
  · rename_i hm
    obtain ⟨⟨st1, e1⟩, h1, hs⟩ := bind_ok hs
    obtain ⟨g1, g2, g3, g4, g5, g6, -, -, g7, -⟩ := execStep_slots h1
    dsimp only at hs
    split at hs
    · cases hs
      exact h.skip g3 g4 g5 g6 g7 g1 (by rw [hm]; rfl) nofun
    · exact ret g3 g4 g5 g6 g7 g1 (by rw [hm]; rfl) hs
    · exact nomatch hs
  · rename_i hm
    obtain ⟨x, -, hs⟩ := bind_ok hs
    split at hs
    · cases hs; exact h.skip rfl rfl rfl rfl rfl rfl (by rw [hm]; rfl) nofun
    · split at hs
      · cases hs; exact h.skip rfl rfl rfl rfl rfl rfl (by rw [hm]; rfl) nofun
      · exact nomatch hs
  · rename_i hm
    obtain ⟨st1, h1, hs⟩ := bind_ok hs
    obtain ⟨x, -, rfl⟩ := update_ok h1
    refine ret ?_ ?_ ?_ ?_ ?_ ?_ (by rw [hm]; rfl) hs <;> rfl
  · rename_i hm
    obtain ⟨x, -, hs⟩ := bind_ok hs
    split at hs <;> (cases hs; exact h.skip rfl rfl rfl rfl rfl rfl (by rw [hm]; rfl) nofun)
  · rename_i hm
    obtain ⟨⟨st1, ok⟩, h1, hs⟩ := bind_ok hs
    obtain ⟨-, q, rfl, e1, e2, e3, e4, e5, e6, e7, e8, -⟩ := popSlot_ok h1
    have := h.work.steal e1 e2 e3 e4 e5 e6 e7 e8
    rw [hm] at this
    dsimp only at hs
    split at hs <;> (cases hs; exact ⟨this, h.dispatch, h.array, h.dispatcher, h.running, nofun⟩)
  · rename_i hm
    obtain ⟨x, -, hs⟩ := bind_ok hs
    split at hs
    · cases hs; exact h.skip rfl rfl rfl rfl rfl rfl (by rw [hm]; rfl) nofun
    · exact nomatch hs
  · rename_i hm
    obtain ⟨st1, h1, hs⟩ := bind_ok hs
    cases hs
    obtain ⟨x, -, rfl⟩ := update_ok h1
    exact h.skip rfl rfl rfl rfl rfl rfl (by rw [hm]; rfl) nofun
  · rename_i hm
    obtain ⟨x, j, -, -, -, -, he⟩ := freeEnd_ok hs
    rw [he]
    exact h.skip rfl rfl rfl rfl rfl rfl (by rw [hm]; rfl) nofun

theorem queueInv_call {st st' : State} {op : Op} (h : QueueInv st) (hb : BlockInv st) (hm : st.main = .idle)
    (hs : callStep st op = .ok (some st')) : QueueInv st' := by
  have hstage : st.main.stage = none := by rw [hm]; rfl
  have start : ∀ {st1 : State} {s : Nat}, st1.work = st.work → st1.dispatch = st.dispatch →
      st1.array = st.array → st1.dispatcher = st.dispatcher → st1.exited = st.exited → st1.workers = st.workers →
      st1.main = .push .work s .wait → QueueInv st1 := by
    intro st1 s e1 e2 e3 e4 e5 e6 e7
    refine ⟨?_, e2.trans h.dispatch, e3.trans h.array, e4.trans h.dispatcher, e5.trans h.running, by rw [e7]; nofun⟩
    have hw := h.work
    rw [hstage] at hw
    rw [e1, e6, e7]
    exact ⟨hw.length, hw.readPos, hw.writePos, hw.read, hw.write, hw.held, nofun, hw.cas, hw.swap, nofun, hw.cell⟩
  have keep : ∀ {st1 : State}, st1.work = st.work → st1.dispatch = st.dispatch →
      st1.array = st.array → st1.dispatcher = st.dispatcher → st1.exited = st.exited → st1.workers = st.workers →
      st1.main.stage = none → (∀ s p, st1.main ≠ .push .dispatch s p) → QueueInv st1 := by
    intro st1 e1 e2 e3 e4 e5 e6 e7 e8
    exact h.skip e1 e2 e3 e4 e5 e6 (e7.trans hstage.symm) e8
  cases op with
  | push deferred mem =>
    simp only [callStep] at hs
    obtain ⟨st1, h1, hs⟩ := bind_ok hs
    cases hs
    rcases pushCall_ok hb h1 with ⟨e, rfl⟩ | ⟨i, -, -, -, -, e1, e2, e3, e4, e5, e6, e7, -⟩
    · exact keep rfl rfl rfl rfl rfl rfl hstage h.main
    · cases deferred with
      | true => exact keep e1 e2 e3 e5 e6 e4 (by rw [e7]; exact hstage) (by rw [e7]; exact h.main)
      | false => exact start e1 e2 e3 e5 e6 e4 e7
  | dispatch i =>
    simp only [callStep] at hs
    split at hs
    · obtain ⟨x, -, hs⟩ := bind_ok hs
      split at hs
      · cases hs; exact h
      · cases hs; exact start rfl rfl rfl rfl rfl rfl rfl
    · exact nomatch hs
  | wait i =>
    simp only [callStep] at hs
    split at hs
    · cases hs; exact keep rfl rfl rfl rfl rfl rfl rfl nofun
    · exact nomatch hs
  | waitFor i =>
    simp only [callStep] at hs
    split at hs
    · cases hs; exact keep rfl rfl rfl rfl rfl rfl rfl nofun
    · exact nomatch hs
  | free i =>
    simp only [callStep] at hs
    split at hs
    · obtain ⟨u, -, hs⟩ := bind_ok hs
      cases hs; exact keep rfl rfl rfl rfl rfl rfl rfl nofun
    · exact nomatch hs
  | progress i =>
    simp only [callStep] at hs
    split at hs
    · obtain ⟨x, -, hs⟩ := bind_ok hs
      obtain ⟨j, -, hs⟩ := bind_ok hs
      cases hs; exact keep rfl rfl rfl rfl rfl rfl hstage h.main
    · exact nomatch hs
  | cancel i =>
    simp only [callStep] at hs
    split at hs
    · obtain ⟨j, -, hs⟩ := bind_ok hs
      obtain ⟨st1, h1, hs⟩ := bind_ok hs
      cases hs
      obtain ⟨x, -, rfl⟩ := update_ok h1
      exact keep rfl rfl rfl rfl rfl rfl hstage h.main
    · exact nomatch hs

theorem queueInv_step {st st' : State} {a : Act} (h : QueueInv st) (hb : BlockInv st)
    (hs : step st a = .ok (some st')) (hno : Smooth st'.log) : QueueInv st' := by
  unfold step at hs
  rw [h.running] at hs
  rw [if_neg (by simp)] at hs
  cases a with
  | call op =>
    dsimp only at hs
    split at hs
    · rename_i hm; exact queueInv_call h hb hm hs
    · exact nomatch hs
  | main timeout => exact queueInv_main h hs hno
  | worker i =>
    dsimp only at hs
    split at hs
    · exact nomatch hs
    · rename_i w hw
      obtain ⟨r, h1, hs⟩ := bind_ok hs
      cases r with
      | none => exact nomatch hs
      | some r => cases hs; exact queueInv_worker h hw h1
  | dispatcher mem => exact queueInv_dispatcher h hs
  | report t v =>
    simp only [reportStep] at hs
    split at hs
    · obtain ⟨st1, h1, hs⟩ := bind_ok hs
      cases hs
      obtain ⟨x, -, rfl⟩ := update_ok h1
      exact h.skip rfl rfl rfl rfl rfl rfl rfl h.main
    · exact nomatch hs
  | ask t =>
    simp only [askStep] at hs
    split at hs
    · obtain ⟨x, -, hs⟩ := bind_ok hs
      cases hs
      exact h.skip rfl rfl rfl rfl rfl rfl rfl h.main
    · exact nomatch hs

theorem queueInv_init (n : Nat) : QueueInv (init n) := by
  refine ⟨?_, rfl, rfl, rfl, rfl, nofun⟩
  have r : ((init n).workers.map WorkerPc.reading).sum = 0 :=
    sum_zero _ _ fun w hw => by rw [List.eq_of_mem_replicate hw]; rfl
  have d : ((init n).workers.map WorkerPc.held).sum = 0 :=
    sum_zero _ _ fun w hw => by rw [List.eq_of_mem_replicate hw]; rfl
  refine ⟨by simp [init, emptyQueue], rfl, rfl, ?_, ?_, ?_, nofun, ?_, ?_, nofun, ?_⟩
  · rw [r]; rfl
  · rw [d]; rfl
  · rw [d]; exact Nat.zero_le _
  · intro pos hm
    exact nomatch List.eq_of_mem_replicate hm
  · intro pos hm
    exact nomatch List.eq_of_mem_replicate hm
  · intro pos s hc
    simp only [init, emptyQueue, List.getElem?_replicate] at hc
    split at hc <;> exact nomatch hc

theorem queueInv_run {P : State → Act → Prop} {n : Nat} {acts : List Act} {st : State} (h : Run P n acts st)
    (hno : Smooth st.log) : QueueInv st := by
  induction h with
  | start => exact queueInv_init n
  | next hr hc hs ih =>
    have hb := (handleInv_run hr).block
    refine queueInv_step (ih ?_) hb hs hno
    rcases step_log hb hs with h | ⟨e, h⟩
    · rw [h] at hno; exact hno
    · rw [h] at hno; exact hno.tail

/-! ## A queue that never fills up -/

/-- The main thread has still to get a write position of the work queue. -/
def PushStage.unclaimed : PushStage → Nat
  | .wait => 1
  | .load => 1
  | .cas _ => 1
  | _ => 0

def unclaimed (p : Option PushStage) : Nat := (p.map PushStage.unclaimed).getD 0

/-- What happens is no refusal. -/
theorem Smooth.cons {e : Event} {log : List Event} (h : Smooth log) (he : ∀ j, e ≠ .overflowed j) : Smooth (e :: log) := by
  intro j hj
  rcases List.mem_cons.mp hj with hj | hj
  · exact he j hj.symm
  · exact h j hj

theorem execStep_log {st st' : State} {e : Exec} {e' : Option Exec} (h : execStep st e = .ok (st', e')) (hno : Smooth st.log) :
    Smooth st'.log := by
  cases e with
  | start s =>
    simp only [execStep] at h
    obtain ⟨x, hx, h⟩ := bind_ok h
    cases hj : x.job with
    | none => rw [hj] at h; exact nomatch h
    | some j =>
      rw [hj] at h; cases h
      exact hno.cons nofun
  | running s j => cases h; exact hno.cons nofun
  | mark s j =>
    simp only [execStep] at h
    obtain ⟨st1, h1, h⟩ := bind_ok h
    cases h
    obtain ⟨x, -, rfl⟩ := update_ok h1
    exact hno
  | set s =>
    simp only [execStep] at h
    obtain ⟨st1, h1, h⟩ := bind_ok h
    cases h
    obtain ⟨x, -, rfl⟩ := update_ok h1
    exact hno

theorem popStep_written {q q' : Queue} {p : PopStage} {r : PopStage ⊕ Option Nat} (h : popStep q p = .ok (q', r)) :
    q'.written = q.written := by
  cases p with
  | load => simp only [popStep] at h; cases h; rfl
  | cas pos => simp only [popStep] at h; split at h <;> (cases h; rfl)
  | swap pos => simp only [popStep] at h; obtain ⟨v, -, h⟩ := bind_ok h; cases h; rfl
  | release v => simp only [popStep] at h; cases h; rfl

/-- How many write positions of the work queue the dispatches so far have used or will use. -/
def State.claims (st : State) : Nat := st.work.written + unclaimed st.main.stage

/-- The work queue refuses a work at the next step of the main thread. -/
def State.refuses (st : State) : Prop :=
  (∃ s, st.main = .push .work s .wait ∧ st.work.writeSem = 0) ∨
    ∃ s pos t, st.main = .push .work s (.put pos) ∧ st.work.ring[pos]? = some (some t)

theorem claims_push {st st' : State} {s : Nat} {p : PushStage} (hm : st.main = .push .work s p)
    (hs : pushStep st .work s p = .ok (some st')) (hno : Smooth st.log) (hr : ¬ st.refuses) :
    Smooth st'.log ∧ st'.claims ≤ st.claims := by
  have hc : st.claims = st.work.written + p.unclaimed := by unfold State.claims; rw [hm]; rfl
  cases p with
  | wait =>
    simp only [pushStep] at hs
    split at hs
    · rename_i h0
      exact absurd (.inl ⟨s, hm, h0⟩) hr
    · cases hs
      exact ⟨hno, Nat.le_of_eq hc.symm⟩
  | load =>
    simp only [pushStep] at hs
    cases hs
    exact ⟨hno, Nat.le_of_eq hc.symm⟩
  | cas pos =>
    simp only [pushStep] at hs
    split at hs
    · cases hs
      exact ⟨hno, Nat.le_of_eq hc.symm⟩
    · cases hs
      exact ⟨hno, Nat.le_of_eq hc.symm⟩
  | put pos =>
    simp only [pushStep] at hs
    obtain ⟨r, h1, hs⟩ := bind_ok hs
    cases r with
    | some t => exact absurd (.inr ⟨s, pos, t, hm, rd_ok h1⟩) hr
    | none =>
      cases hs
      exact ⟨hno, Nat.le_of_eq hc.symm⟩
  | store pos =>
    simp only [pushStep] at hs
    obtain ⟨st1, h1, hs⟩ := bind_ok hs
    cases hs
    obtain ⟨x, -, rfl⟩ := update_ok h1
    exact ⟨hno, Nat.le_of_eq hc.symm⟩
  | release =>
    simp only [pushStep] at hs
    obtain ⟨j, -, hs⟩ := bind_ok hs
    cases hs
    exact ⟨hno.cons nofun, Nat.le_of_eq hc.symm⟩

theorem claims_main {st st' : State} {timeout : Bool} (h : QueueInv st) (hs : mainStep st timeout = .ok (some st'))
    (hno : Smooth st.log) (hr : ¬ st.refuses) : Smooth st'.log ∧ st'.claims ≤ st.claims := by
  have ret : ∀ {st1 : State} {s : Nat} {ok : Bool}, st1.work.written = st.work.written → Smooth st1.log →
      waitReturn st1 s ok = .ok (some st') → Smooth st'.log ∧ st'.claims ≤ st.claims := by
    intro st1 s ok e1 e2 hr
    unfold waitReturn at hr
    obtain ⟨j, -, hr⟩ := bind_ok hr
    cases hr
    refine ⟨e2.cons (by cases ok <;> nofun), ?_⟩
    show st1.work.written + 0 ≤ st.work.written + _
    omega
  have keep : ∀ {st1 : State}, st1.work.written = st.work.written → st1.main.stage = none → st1.claims ≤ st.claims := by
    intro st1 e1 e2
    unfold State.claims
    rw [e1, e2]
    exact Nat.le_add_right _ _
  unfold mainStep at hs
  split at hs
  · exact nomatch hs
  · rename_i q s p hm
    cases q with
    | work => exact claims_push hm hs hno hr
    | dispatch => exact absurd hm (h.main s p)
  · obtain ⟨x, -, hs⟩ := bind_ok hs
    split at hs
    · exact ret rfl hno hs
    · split at hs <;> (cases hs; exact ⟨hno, keep rfl rfl⟩)
  · obtain ⟨⟨st1, ok⟩, h1, hs⟩ := bind_ok hs
    obtain ⟨-, q, rfl, e1, e2, e3, e4, e5, e6, e7, e8, -⟩ := popSlot_ok h1
    dsimp only at hs
    split at hs <;> (cases hs; exact ⟨hno, keep e5 rfl⟩)
  · obtain ⟨⟨st1, e1⟩, h1, hs⟩ := bind_ok hs
    have hl := execStep_log h1 hno
    obtain ⟨g1, g2, g3, g4, g5, g6, -, -, g7, -⟩ := execStep_slots h1
    dsimp only at hs
    split at hs
    · cases hs
      exact ⟨hl, keep (by show st1.work.written = _; rw [g3]) rfl⟩
    · exact ret (by rw [g3]) hl hs
    · exact nomatch hs
  · obtain ⟨x, -, hs⟩ := bind_ok hs
    split at hs
    · cases hs; exact ⟨hno, keep rfl rfl⟩
    · split at hs
      · cases hs; exact ⟨hno, keep rfl rfl⟩
      · exact nomatch hs
  · obtain ⟨st1, h1, hs⟩ := bind_ok hs
    obtain ⟨x, -, rfl⟩ := update_ok h1
    refine ret ?_ ?_ hs
    · rfl
    · exact hno
  · obtain ⟨x, -, hs⟩ := bind_ok hs
    split at hs <;> (cases hs; exact ⟨hno, keep rfl rfl⟩)
  · obtain ⟨⟨st1, ok⟩, h1, hs⟩ := bind_ok hs
    obtain ⟨-, q, rfl, e1, e2, e3, e4, e5, e6, e7, e8, -⟩ := popSlot_ok h1
    dsimp only at hs
    split at hs <;> (cases hs; exact ⟨hno, keep e5 rfl⟩)
  · obtain ⟨x, -, hs⟩ := bind_ok hs
    split at hs
    · cases hs; exact ⟨hno, keep rfl rfl⟩
    · exact nomatch hs
  · obtain ⟨st1, h1, hs⟩ := bind_ok hs
    cases hs
    obtain ⟨x, -, rfl⟩ := update_ok h1
    exact ⟨hno, keep rfl rfl⟩
  · obtain ⟨x, j, -, -, -, -, he⟩ := freeEnd_ok hs
    rw [he]
    exact ⟨hno.cons nofun, keep rfl rfl⟩

theorem claims_call {st st' : State} {op : Op} (hb : BlockInv st) (hm : st.main = .idle)
    (hs : callStep st op = .ok (some st')) (hno : Smooth st.log) :
    Smooth st'.log ∧ st'.claims ≤ st.claims + (if Act.dispatches (.call op) then 1 else 0) := by
  have hc : st.claims = st.work.written := by unfold State.claims; rw [hm]; rfl
  cases op with
  | push deferred mem =>
    simp only [callStep] at hs
    obtain ⟨st1, h1, hs⟩ := bind_ok hs
    cases hs
    rcases pushCall_ok hb h1 with ⟨e, rfl⟩ | ⟨i, -, -, e0, -, e1, e2, e3, e4, e5, e6, e7, -⟩
    · exact ⟨hno.cons nofun, Nat.le_add_right _ _⟩
    · refine ⟨by rw [e0]; exact hno.cons nofun, ?_⟩
      rw [hc]
      unfold State.claims
      rw [e1, e7]
      cases deferred with
      | true => rw [if_pos rfl, hm]; exact Nat.le_add_right _ _
      | false => exact Nat.le_refl _
  | dispatch i =>
    simp only [callStep] at hs
    split at hs
    · obtain ⟨x, -, hs⟩ := bind_ok hs
      split at hs
      · cases hs; exact ⟨hno, Nat.le_add_right _ _⟩
      · cases hs; exact ⟨hno, by rw [hc]; exact Nat.le_refl _⟩
    · exact nomatch hs
  | wait i =>
    simp only [callStep] at hs
    split at hs
    · cases hs; exact ⟨hno, by rw [hc]; exact Nat.le_refl _⟩
    · exact nomatch hs
  | waitFor i =>
    simp only [callStep] at hs
    split at hs
    · cases hs; exact ⟨hno, by rw [hc]; exact Nat.le_refl _⟩
    · exact nomatch hs
  | free i =>
    simp only [callStep] at hs
    split at hs
    · obtain ⟨u, -, hs⟩ := bind_ok hs
      cases hs; exact ⟨hno, by rw [hc]; exact Nat.le_refl _⟩
    · exact nomatch hs
  | progress i =>
    simp only [callStep] at hs
    split at hs
    · obtain ⟨x, -, hs⟩ := bind_ok hs
      obtain ⟨j, -, hs⟩ := bind_ok hs
      cases hs; exact ⟨hno.cons nofun, Nat.le_refl _⟩
    · exact nomatch hs
  | cancel i =>
    simp only [callStep] at hs
    split at hs
    · obtain ⟨j, -, hs⟩ := bind_ok hs
      obtain ⟨st1, h1, hs⟩ := bind_ok hs
      cases hs
      obtain ⟨x, -, rfl⟩ := update_ok h1
      exact ⟨hno.cons nofun, Nat.le_refl _⟩
    · exact nomatch hs

theorem claims_step {st st' : State} {a : Act} (h : QueueInv st) (hb : BlockInv st)
    (hs : step st a = .ok (some st')) (hno : Smooth st.log) (hr : ¬ st.refuses) :
    Smooth st'.log ∧ st'.claims ≤ st.claims + (if a.dispatches then 1 else 0) := by
  unfold step at hs
  rw [h.running] at hs
  rw [if_neg (by simp)] at hs
  cases a with
  | call op =>
    dsimp only at hs
    split at hs
    · rename_i hm; exact claims_call hb hm hs hno
    · exact nomatch hs
  | main timeout => exact claims_main h hs hno hr
  | worker i =>
    dsimp only at hs
    split at hs
    · exact nomatch hs
    · rename_i w hw
      obtain ⟨r, h1, hs⟩ := bind_ok hs
      cases r with
      | none => exact nomatch hs
      | some r =>
        cases hs
        cases w with
        | wait =>
          simp only [workerStep] at h1
          split at h1
          · exact nomatch h1
          · cases h1; exact ⟨hno, Nat.le_refl _⟩
        | pop p =>
          simp only [workerStep] at h1
          obtain ⟨⟨q, r⟩, h2, h1⟩ := bind_ok h1
          have he := popStep_written h2
          dsimp only at h1
          split at h1
          all_goals
            cases h1
            exact ⟨hno, by show q.written + _ ≤ st.work.written + _; rw [he]; exact Nat.le_refl _⟩
        | exec e =>
          simp only [workerStep] at h1
          obtain ⟨⟨st2, e2⟩, h2, h1⟩ := bind_ok h1
          have hl := execStep_log h2 hno
          obtain ⟨g1, g2, g3, -⟩ := execStep_slots h2
          dsimp only at h1
          split at h1
          all_goals
            cases h1
            exact ⟨hl, by
              show State.claims _ ≤ st.claims
              unfold State.claims
              dsimp only
              rw [g3, g2]
              exact Nat.le_refl _⟩
  | dispatcher mem =>
    exfalso
    replace hs : dispatcherStep st mem = .ok (some st') := hs
    unfold dispatcherStep at hs
    rw [h.dispatcher] at hs
    dsimp only at hs
    rw [h.dispatch, h.array] at hs
    simp [emptyQueue] at hs
  | report t v =>
    simp only [reportStep] at hs
    split at hs
    · obtain ⟨st1, h1, hs⟩ := bind_ok hs
      cases hs
      obtain ⟨x, -, rfl⟩ := update_ok h1
      exact ⟨hno.cons nofun, Nat.le_refl _⟩
    · exact nomatch hs
  | ask t =>
    simp only [askStep] at hs
    split at hs
    · obtain ⟨x, -, hs⟩ := bind_ok hs
      cases hs
      exact ⟨hno.cons nofun, Nat.le_refl _⟩
    · exact nomatch hs

/-- While no more than 256 works were dispatched the queue refuses none. -/
theorem not_refuses {st : State} (h : QueueInv st) (hc : st.claims ≤ ringSize) : ¬ st.refuses := by
  have hw := h.work
  rintro (⟨s, hm, h0⟩ | ⟨s, pos, t, hm, ht⟩)
  · have hwrite := hw.write
    have hheld := hw.held
    unfold State.claims at hc
    rw [hm] at hwrite hc
    replace hwrite : st.work.writeSem + 0 + st.work.written + (st.workers.map WorkerPc.held).sum = ringSize + st.work.taken := hwrite
    replace hc : st.work.written + 1 ≤ ringSize := hc
    omega
  · unfold State.claims at hc
    rw [hm] at hw hc
    replace hw : WorkOk st.work st.workers (some (.put pos)) := hw
    replace hc : st.work.written ≤ ringSize := hc
    have hread := hw.read
    replace hread : st.work.readSem + (st.workers.map WorkerPc.reading).sum + st.work.taken + 1 = st.work.written := hread
    have hpos := hw.put pos rfl
    rw [Nat.mod_eq_of_lt (by omega)] at hpos
    rcases hw.cell pos t ht with ⟨k, k1, k2, k3⟩ | hm
    · replace k2 : k + 1 < st.work.written := k2
      rw [Nat.mod_eq_of_lt (by omega)] at k3
      omega
    · obtain ⟨k, k1, k2⟩ := hw.swap pos hm
      rw [Nat.mod_eq_of_lt (by omega)] at k2
      omega

theorem few_run {P : State → Act → Prop} {n : Nat} {acts : List Act} {st : State} (h : Run P n acts st)
    (hf : (acts.filter Act.dispatches).length ≤ 256) :
    Smooth st.log ∧ st.claims ≤ (acts.filter Act.dispatches).length := by
  induction h with
  | start => exact ⟨nofun, Nat.le_refl _⟩
  | @next acts st a st' hr hc hs ih =>
    rw [List.filter_append, List.length_append] at hf ⊢
    obtain ⟨h1, h2⟩ := ih (by omega)
    have hq := queueInv_run hr h1
    have hcl : st.claims ≤ ringSize := by unfold ringSize; omega
    obtain ⟨h3, h4⟩ := claims_step hq (handleInv_run hr).block hs h1 (not_refuses hq hcl)
    refine ⟨h3, ?_⟩
    have : (List.filter Act.dispatches [a]).length = if a.dispatches then 1 else 0 := by
      cases hd : a.dispatches <;> simp [hd]
    omega

/-! ## A run that cannot go on -/

/-- When the threads cannot go on no work is waiting in the queue, none is executed and the main thread is outside of the
library. -/
theorem stuck_idle {st : State} (hi : Inv st) (hq : QueueInv st) (hn : st.workers ≠ []) (hstuck : Stuck st) :
    (∀ w ∈ st.workers, w = .wait) ∧ st.main = .idle ∧ ∀ s, st.waits s = 0 := by
  have hex : ∀ a, a.proceeds = true → step st a = .ok none := hstuck
  have hworkers : ∀ w ∈ st.workers, w = .wait ∧ st.work.readSem = 0 := by
    intro w hw
    obtain ⟨i, hwi⟩ := List.mem_iff_getElem?.mp hw
    have := hex (.worker i) rfl
    unfold step at this
    rw [hq.running, if_neg (by simp)] at this
    dsimp only at this
    rw [hwi] at this
    dsimp only at this
    obtain ⟨r, h1, h2⟩ := bind_ok this
    cases r with
    | some r => exact nomatch h2
    | none =>
      cases w with
      | wait =>
        simp only [workerStep] at h1
        split at h1
        · rename_i h0; exact ⟨rfl, h0⟩
        · exact nomatch h1
      | pop p =>
        simp only [workerStep] at h1
        obtain ⟨⟨q, r⟩, -, h1⟩ := bind_ok h1
        dsimp only at h1
        split at h1 <;> exact nomatch h1
      | exec e =>
        simp only [workerStep] at h1
        obtain ⟨⟨st2, e2⟩, -, h1⟩ := bind_ok h1
        dsimp only at h1
        split at h1 <;> exact nomatch h1
  have hwait : ∀ w ∈ st.workers, w = .wait := fun w hw => (hworkers w hw).1
  have hsem : st.work.readSem = 0 := by
    cases hws : st.workers with
    | nil => exact absurd hws hn
    | cons w ws => exact (hworkers w (by rw [hws]; exact List.mem_cons_self)).2
  have hm := hex (.main true) rfl
  have hm : mainStep st true = .ok none := by
    unfold step at hm
    rw [hq.running, if_neg (by simp)] at hm
    exact hm
  have hruns : (st.workers.map fun w => w.runs) = st.workers.map fun _ => fun _ => 0 := by
    apply List.map_congr_left
    intro w hw
    rw [hwait w hw]
    rfl
  have z : ∀ f : WorkerPc → Nat, f .wait = 0 → (st.workers.map f).sum = 0 := fun f hf =>
    sum_zero f _ fun w hw => by rw [hwait w hw, hf]
  -- where nothing waits, an event that is waited for is signaled
  have hring : publishing st.main.stage = 0 → ∀ s, st.work.ring.count (some s) = 0 := by
    intro hp s
    apply List.count_eq_zero.mpr
    intro hs
    obtain ⟨pos, hpos⟩ := List.mem_iff_getElem?.mp hs
    have hread := hq.work.read
    rw [z _ rfl, hsem, hp] at hread
    rcases hq.work.cell pos s hpos with ⟨k, k1, k2, -⟩ | h
    · omega
    · exact nomatch hwait _ h
  have hwaits : publishing st.main.stage = 0 → ∀ s, st.waits s = st.main.waits s := by
    intro hp s
    unfold State.waits
    rw [hring hp s, hq.dispatch, hq.array, hq.dispatcher, z (WorkerPc.waits s) rfl]
    simp [emptyQueue, List.count_replicate, DispatcherPc.waits]
  have hblock : ∀ s, st.main.stage = none → (∀ t, st.main.waits t = 0) → (∀ t, st.main.runs t = 0) →
      (∀ t, st.main.sets t = 0) → st.main.pushing s = false → (st.slot s).job.isSome → ¬ (st.slot s).ringPos < 0 →
      (st.slot s).event = true := by
    intro s h0 h1 h2 h3 h4 h5 h6
    obtain ⟨j, hj⟩ := Option.isSome_iff_exists.mp h5
    have := hi.slots s
    unfold SlotOk at this
    rw [hj] at this
    dsimp only at this
    obtain ⟨-, g2, -, -, -, -, g7, -⟩ := this
    rw [hwaits (by rw [h0]; rfl), h1, h4] at g2
    have hr : st.runs s = 0 := by unfold State.runs; rw [h2, z _ rfl]
    have hsets : st.sets s = 0 := by unfold State.sets; rw [h3, z _ rfl]
    rw [hr] at g2
    simp only [home, h6, false_and, if_false] at g2
    have hsig : (st.slot s).signaled = true := by
      cases hb : (st.slot s).signaled with
      | true => rfl
      | false => rw [hb] at g2; simp at g2
    rcases g7 hsig with h | h
    · exact h
    · omega
  have hidle : st.main = .idle := by
    have hok := hi.main
    cases hmm : st.main with
    | idle => rfl
    | push q s p =>
      exfalso
      cases q with
      | dispatch => exact hq.main s p hmm
      | work =>
        unfold mainStep at hm
        rw [hmm] at hm
        dsimp only at hm
        cases p with
        | wait =>
          simp only [pushStep] at hm
          split at hm
          · obtain ⟨st1, -, hm⟩ := bind_ok hm; exact nomatch hm
          · exact nomatch hm
        | load => exact nomatch hm
        | cas pos => simp only [pushStep] at hm; split at hm <;> exact nomatch hm
        | put pos =>
          simp only [pushStep] at hm
          obtain ⟨r, -, hm⟩ := bind_ok hm
          cases r with
          | none => exact nomatch hm
          | some t => dsimp only at hm; obtain ⟨st1, -, hm⟩ := bind_ok hm; exact nomatch hm
        | store pos => simp only [pushStep] at hm; obtain ⟨st1, -, hm⟩ := bind_ok hm; exact nomatch hm
        | release => simp only [pushStep] at hm; obtain ⟨st1, -, hm⟩ := bind_ok hm; exact nomatch hm
    | waiting s timed =>
      exfalso
      unfold mainStep at hm
      rw [hmm] at hm
      dsimp only at hm
      obtain ⟨x, -, hm⟩ := bind_ok hm
      split at hm
      · unfold waitReturn at hm; obtain ⟨j, -, hm⟩ := bind_ok hm; exact nomatch hm
      · split at hm <;> exact nomatch hm
    | steal s =>
      exfalso
      unfold mainStep at hm
      rw [hmm] at hm
      dsimp only at hm
      obtain ⟨⟨st1, ok⟩, -, hm⟩ := bind_ok hm
      dsimp only at hm
      split at hm <;> exact nomatch hm
    | exec e =>
      exfalso
      unfold mainStep at hm
      rw [hmm] at hm
      dsimp only at hm
      obtain ⟨⟨st1, e1⟩, -, hm⟩ := bind_ok hm
      dsimp only at hm
      split at hm
      · exact nomatch hm
      · unfold waitReturn at hm; obtain ⟨j, -, hm⟩ := bind_ok hm; exact nomatch hm
      · exact nomatch hm
    | block s timed =>
      exfalso
      rw [hmm] at hok
      unfold mainStep at hm
      rw [hmm] at hm
      dsimp only at hm
      obtain ⟨x, hx, hm⟩ := bind_ok hm
      have hxs := slot_of_getElem? (rd_ok hx)
      split at hm
      · exact nomatch hm
      · rename_i hev
        split at hm
        · exact nomatch hm
        · rename_i ht
          have ht : timed = false := by simpa using ht
          have := hblock s (by rw [hmm]; rfl) (by rw [hmm]; intro t; rfl) (by rw [hmm]; intro t; rfl)
            (by rw [hmm]; intro t; rfl) (by rw [hmm]; rfl) hok.1 (hok.2 ht)
          rw [hxs] at this
          exact hev this
    | mark s ok =>
      exfalso
      unfold mainStep at hm
      rw [hmm] at hm
      dsimp only at hm
      obtain ⟨st1, -, hm⟩ := bind_ok hm
      unfold waitReturn at hm; obtain ⟨j, -, hm⟩ := bind_ok hm; exact nomatch hm
    | free s =>
      exfalso
      unfold mainStep at hm
      rw [hmm] at hm
      dsimp only at hm
      obtain ⟨x, -, hm⟩ := bind_ok hm
      split at hm <;> exact nomatch hm
    | freeSteal s =>
      exfalso
      unfold mainStep at hm
      rw [hmm] at hm
      dsimp only at hm
      obtain ⟨⟨st1, ok⟩, -, hm⟩ := bind_ok hm
      dsimp only at hm
      split at hm <;> exact nomatch hm
    | freeBlock s =>
      exfalso
      rw [hmm] at hok
      unfold mainStep at hm
      rw [hmm] at hm
      dsimp only at hm
      obtain ⟨x, hx, hm⟩ := bind_ok hm
      have hxs := slot_of_getElem? (rd_ok hx)
      split at hm
      · exact nomatch hm
      · rename_i hev
        have := hblock s (by rw [hmm]; rfl) (by rw [hmm]; intro t; rfl) (by rw [hmm]; intro t; rfl)
          (by rw [hmm]; intro t; rfl) (by rw [hmm]; rfl) hok.1 hok.2
        rw [hxs] at this
        exact hev this
    | freeMark s =>
      exfalso
      unfold mainStep at hm
      rw [hmm] at hm
      dsimp only at hm
      obtain ⟨st1, -, hm⟩ := bind_ok hm
      exact nomatch hm
    | freeEnd s taken =>
      exfalso
      unfold mainStep at hm
      rw [hmm] at hm
      dsimp only at hm
      unfold freeEnd at hm
      obtain ⟨x, -, hm⟩ := bind_ok hm
      obtain ⟨j, -, hm⟩ := bind_ok hm
      obtain ⟨u, -, hm⟩ := bind_ok hm
      obtain ⟨bs, -, hm⟩ := bind_ok hm
      exact nomatch hm
  refine ⟨hwait, hidle, fun s => ?_⟩
  rw [hwaits (by rw [hidle]; rfl), hidle]
  rfl

/-- When the threads cannot go on every work that was handed to them has been executed. -/
theorem stuck_finished {st : State} (hi : Inv st) (hq : QueueInv st) (hn : st.workers ≠ []) (hstuck : Stuck st) (j : Nat)
    (hj : .dispatched j ∈ st.log) : .finished j ∈ st.log := by
  obtain ⟨hwait, hidle, hzero⟩ := stuck_idle hi hq hn hstuck
  obtain ⟨-, h⟩ := hi.dispatched j hj
  rcases h with h | ⟨s, hs, hp⟩
  · exact h.1
  · have := hi.slots s
    unfold SlotOk at this
    rw [hs] at this
    dsimp only at this
    obtain ⟨-, g2, -, g4, -⟩ := this
    apply g4
    have hr : st.runs s = 0 := by
      unfold State.runs
      rw [hidle, sum_zero _ _ fun w hw => by rw [hwait w hw]; rfl]
      rfl
    rw [hzero, hr] at g2
    simp only [home, hp, false_and, if_false] at g2
    cases hb : (st.slot s).signaled with
    | true => rfl
    | false => rw [hb] at g2; simp at g2

end Tm.Async
