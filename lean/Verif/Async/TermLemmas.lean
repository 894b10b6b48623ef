import Verif.Async.FlowLemmas

/-!
# The threads come to rest
-/

namespace Tm.Async

/-- How much a thread that pops has still to do, in units of `k`. A position that was read too early costs one more. -/
def PopStage.todo (k pos : Nat) : PopStage → Nat
  | .load => 9 * k
  | .cas p => 8 * k + if p = pos then 0 else 1
  | .swap _ => 7 * k
  | .release _ => 6 * k

def Exec.todo (k : Nat) : Exec → Nat
  | .start _ => 5 * k
  | .running _ _ => 4 * k
  | .mark _ _ => 3 * k
  | .set _ => 2 * k

def WorkerPc.todo (k pos : Nat) : WorkerPc → Nat
  | .wait => 0
  | .pop p => p.todo k pos
  | .exec e => e.todo k

def PushStage.todo (k pos : Nat) : PushStage → Nat
  | .wait => 16 * k
  | .load => 15 * k
  | .cas p => 14 * k - if p = pos then 1 else 0
  | .put _ => 13 * k
  | .store _ => 12 * k
  | .release => 11 * k

def MainPc.todo (k pos : Nat) : MainPc → Nat
  | .idle => 0
  | .push _ _ p => p.todo k pos
  | .waiting _ _ => 10 * k
  | .steal _ => 9 * k
  | .exec e => e.todo k
  | .block _ _ => 3 * k
  | .mark _ _ => 2 * k
  | .free _ => 8 * k
  | .freeSteal _ => 7 * k
  | .freeBlock _ => 3 * k
  | .freeMark _ => 2 * k
  | .freeEnd _ _ => k

/-- How much the threads have still to do. -/
def State.todo (st : State) : Nat :=
  10 * (st.workers.length + 2) * st.work.readSem +
    (st.workers.map (WorkerPc.todo (st.workers.length + 2) st.work.readPos)).sum +
    st.main.todo (st.workers.length + 2) st.work.writePos

theorem lt_of_eq_of_lt {a b c : Nat} (h : a = b) (h' : b < c) : a < c := h ▸ h'

theorem todo_pos (k pos pos' : Nat) (w : WorkerPc) : w.todo k pos' ≤ w.todo k pos + 1 := by
  cases w with
  | wait => exact Nat.zero_le _
  | pop p =>
    cases p with
    | cas p => simp only [WorkerPc.todo, PopStage.todo]; split <;> split <;> omega
    | _ => exact Nat.le_succ _
  | exec e => exact Nat.le_succ _

theorem todo_sum (k pos pos' : Nat) (ws : List WorkerPc) :
    (ws.map (WorkerPc.todo k pos')).sum ≤ (ws.map (WorkerPc.todo k pos)).sum + ws.length := by
  induction ws with
  | nil => exact Nat.zero_le _
  | cons w ws ih =>
    simp only [List.map_cons, List.sum_cons, List.length_cons]
    have := todo_pos k pos pos' w
    omega

theorem execStep_todo {st st' : State} {e : Exec} {e' : Option Exec} (h : execStep st e = .ok (st', e')) (k : Nat) :
    (match e' with
      | some e' => e'.todo k
      | none => 0) + k ≤ e.todo k := by
  cases e with
  | start s =>
    simp only [execStep] at h
    obtain ⟨x, -, h⟩ := bind_ok h
    cases hj : x.job with
    | none => rw [hj] at h; exact nomatch h
    | some j => rw [hj] at h; cases h; simp only [Exec.todo]; omega
  | running s j => cases h; simp only [Exec.todo]; omega
  | mark s j =>
    simp only [execStep] at h
    obtain ⟨x, -, h⟩ := bind_ok h
    cases h; simp only [Exec.todo]; omega
  | set s =>
    simp only [execStep] at h
    obtain ⟨x, -, h⟩ := bind_ok h
    cases h; simp only [Exec.todo]; omega

theorem todo_worker {st st1 : State} {i : Nat} {w w' : WorkerPc} (hi : st.workers[i]? = some w)
    (hs : workerStep st w = .ok (some (st1, w'))) : State.todo { st1 with workers := st.workers.set i w' } < st.todo := by
  have ss := fun (pos : Nat) (w' : WorkerPc) =>
    sum_set (WorkerPc.todo (st.workers.length + 2) pos) st.workers i w w' hi
  have unf : ∀ (st2 : State) (q : Queue) (w' : WorkerPc), st2.workers = st.workers.set i w' → st2.work = q →
      st2.main = st.main → q.writePos = st.work.writePos →
      st2.todo = 10 * (st.workers.length + 2) * q.readSem +
        ((st.workers.set i w').map (WorkerPc.todo (st.workers.length + 2) q.readPos)).sum +
        st.main.todo (st.workers.length + 2) st.work.writePos := by
    intro st2 q w' e e0 e1 e2
    subst e0
    simp only [State.todo, e, List.length_set, e1, e2]
  have hst : st.todo = 10 * (st.workers.length + 2) * st.work.readSem +
    (st.workers.map (WorkerPc.todo (st.workers.length + 2) st.work.readPos)).sum +
    st.main.todo (st.workers.length + 2) st.work.writePos := rfl
  rw [hst]
  cases w with
  | wait =>
    simp only [workerStep] at hs
    split at hs
    · exact nomatch hs
    · rename_i hne
      cases hs
      refine lt_of_eq_of_lt (unf _ _ _ rfl rfl rfl rfl) ?_
      have := ss st.work.readPos (.pop .load)
      simp only [WorkerPc.todo, PopStage.todo] at this
      simp only
      have hm : 10 * (st.workers.length + 2) * (st.work.readSem - 1) + 10 * (st.workers.length + 2) =
          10 * (st.workers.length + 2) * st.work.readSem := by
        rw [← Nat.mul_succ]
        congr 1
        omega
      omega
  | pop p =>
    simp only [workerStep] at hs
    obtain ⟨⟨q, r⟩, h1, hs⟩ := bind_ok hs
    cases p with
    | load =>
      simp only [popStep] at h1
      cases h1
      cases hs
      refine lt_of_eq_of_lt (unf _ _ _ rfl rfl rfl rfl) ?_
      have := ss st.work.readPos (.pop (.cas st.work.readPos))
      simp only [WorkerPc.todo, PopStage.todo, if_true] at this
      simp only
      omega
    | cas pos =>
      simp only [popStep] at h1
      split at h1
      · rename_i he
        cases h1
        cases hs
        refine lt_of_eq_of_lt (unf _ _ _ rfl rfl rfl rfl) ?_
        have h1 := ss (next pos) (.pop (.swap pos))
        have h2 := todo_sum (st.workers.length + 2) st.work.readPos (next pos) st.workers
        simp only [WorkerPc.todo, PopStage.todo] at h1
        simp only
        have : 8 * (st.workers.length + 2) ≤ WorkerPc.todo (st.workers.length + 2) (next pos) (.pop (.cas pos)) := by
          simp only [WorkerPc.todo, PopStage.todo]
          omega
        split at h1 <;> omega
      · rename_i he
        cases h1
        cases hs
        refine lt_of_eq_of_lt (unf _ _ _ rfl rfl rfl rfl) ?_
        have := ss st.work.readPos (.pop (.cas st.work.readPos))
        simp only [WorkerPc.todo, PopStage.todo, if_true] at this
        rw [if_neg (Ne.symm he)] at this
        simp only
        omega
    | swap pos =>
      simp only [popStep] at h1
      obtain ⟨v, -, h1⟩ := bind_ok h1
      cases h1
      cases hs
      refine lt_of_eq_of_lt (unf _ _ _ rfl rfl rfl rfl) ?_
      have := ss st.work.readPos (.pop (.release v))
      simp only [WorkerPc.todo, PopStage.todo] at this
      simp only
      omega
    | release v =>
      simp only [popStep] at h1
      cases h1
      cases v with
      | none =>
        cases hs
        refine lt_of_eq_of_lt (unf _ _ _ rfl rfl rfl rfl) ?_
        have := ss st.work.readPos .wait
        simp only [WorkerPc.todo, PopStage.todo] at this
        simp only
        omega
      | some s =>
        cases hs
        refine lt_of_eq_of_lt (unf _ _ _ rfl rfl rfl rfl) ?_
        have := ss st.work.readPos (.exec (.start s))
        simp only [WorkerPc.todo, PopStage.todo, Exec.todo] at this
        simp only
        omega
  | exec e =>
    simp only [workerStep] at hs
    obtain ⟨⟨st2, e2⟩, h1, hs⟩ := bind_ok hs
    obtain ⟨g1, g2, g3, -⟩ := execStep_slots h1
    have ht := execStep_todo h1 (st.workers.length + 2)
    dsimp only at hs
    cases e2 with
    | some e' =>
      cases hs
      refine lt_of_eq_of_lt (unf _ st.work _ rfl g3 g2 rfl) ?_
      have := ss st.work.readPos (.exec e')
      simp only [WorkerPc.todo] at this
      dsimp only at ht
      omega
    | none =>
      cases hs
      refine lt_of_eq_of_lt (unf _ st.work _ rfl g3 g2 rfl) ?_
      have := ss st.work.readPos .wait
      simp only [WorkerPc.todo] at this
      dsimp only at ht
      omega

theorem todo_main {st st' : State} {timeout : Bool} (h : QueueInv st) (hs : mainStep st timeout = .ok (some st'))
    (hno : Smooth st'.log) : st'.todo < st.todo := by
  have hst : st.todo = 10 * (st.workers.length + 2) * st.work.readSem +
    (st.workers.map (WorkerPc.todo (st.workers.length + 2) st.work.readPos)).sum +
    st.main.todo (st.workers.length + 2) st.work.writePos := rfl
  have go : ∀ {st1 : State}, st1.workers = st.workers → st1.work.readSem = st.work.readSem →
      st1.work.readPos = st.work.readPos →
      st1.main.todo (st.workers.length + 2) st1.work.writePos < st.main.todo (st.workers.length + 2) st.work.writePos →
      st1.todo < st.todo := by
    intro st1 e1 e2 e3 e4
    rw [hst]
    unfold State.todo
    rw [e1, e2, e3]
    omega
  have ret : ∀ {st1 : State} {s : Nat} {ok : Bool}, st1.workers = st.workers → st1.work = st.work →
      0 < st.main.todo (st.workers.length + 2) st.work.writePos → waitReturn st1 s ok = .ok (some st') →
      st'.todo < st.todo := by
    intro st1 s ok e1 e2 e3 hr
    obtain ⟨g1, -, -, -, -, g6, g7⟩ := waitReturn_queue hr
    refine go (g6.trans e1) (by rw [g1, e2]) (by rw [g1, e2]) ?_
    rw [g7]
    exact e3
  unfold mainStep at hs
  split at hs
  · exact nomatch hs
  · rename_i q s p hm
    cases q with
    | dispatch => exact absurd hm (h.main s p)
    | work =>
      cases p with
      | wait =>
        simp only [pushStep] at hs
        split at hs
        · obtain ⟨st1, h1, hs⟩ := bind_ok hs
          cases hs
          obtain ⟨j, hj⟩ := pushFailed_log h1
          exact absurd hj (hno j)
        · cases hs
          refine go rfl rfl rfl ?_
          rw [hm]
          simp only [MainPc.todo, PushStage.todo]
          omega
      | load =>
        simp only [pushStep] at hs
        cases hs
        refine go rfl rfl rfl ?_
        rw [hm]
        simp only [MainPc.todo, PushStage.todo]
        split <;> omega
      | cas pos =>
        simp only [pushStep] at hs
        split at hs
        · cases hs
          refine go rfl rfl rfl ?_
          rw [hm]
          simp only [MainPc.todo, PushStage.todo]
          split <;> omega
        · rename_i he
          cases hs
          refine go rfl rfl rfl ?_
          rw [hm]
          simp only [MainPc.todo, PushStage.todo]
          rw [if_pos (show (st.queue .work).writePos = st.work.writePos from rfl), if_neg (show ¬ pos = st.work.writePos from fun h => he h.symm)]
          omega
      | put pos =>
        simp only [pushStep] at hs
        obtain ⟨r, hr, hs⟩ := bind_ok hs
        cases r with
        | some t =>
          dsimp only at hs
          obtain ⟨st1, h1, hs⟩ := bind_ok hs
          cases hs
          obtain ⟨j, hj⟩ := pushFailed_log h1
          exact absurd hj (hno j)
        | none =>
          cases hs
          refine go rfl rfl rfl ?_
          rw [hm]
          simp only [MainPc.todo, PushStage.todo]
          omega
      | store pos =>
        simp only [pushStep] at hs
        obtain ⟨st1, h1, hs⟩ := bind_ok hs
        cases hs
        obtain ⟨x, -, rfl⟩ := update_ok h1
        refine go rfl rfl rfl ?_
        rw [hm]
        simp only [MainPc.todo, PushStage.todo]
        omega
      | release =>
        simp only [pushStep] at hs
        obtain ⟨j, -, hs⟩ := bind_ok hs
        cases hs
        rw [hst, hm]
        show 10 * (st.workers.length + 2) * release st.work.readSem +
          (st.workers.map (WorkerPc.todo (st.workers.length + 2) st.work.readPos)).sum + 0 < _
        simp only [MainPc.todo, PushStage.todo]
        have : release st.work.readSem ≤ st.work.readSem + 1 := by unfold release; split <;> omega
        have := Nat.mul_le_mul_left (10 * (st.workers.length + 2)) this
        rw [Nat.mul_add (10 * (st.workers.length + 2)) st.work.readSem 1] at this
        omega
  · rename_i hm
    obtain ⟨x, -, hs⟩ := bind_ok hs
    split at hs
    · exact ret rfl rfl (by rw [hm]; simp [MainPc.todo]) hs
    · split at hs <;> (cases hs; refine go rfl rfl rfl ?_; rw [hm]; simp only [MainPc.todo]; omega)
  · rename_i hm
    obtain ⟨⟨st1, ok⟩, h1, hs⟩ := bind_ok hs
    obtain ⟨-, q, rfl, e1, e2, e3, e4, e5, e6, e7, e8, -⟩ := popSlot_ok h1
    dsimp only at hs
    split at hs <;> (cases hs; refine go rfl e1 e3 ?_; rw [hm]; simp only [MainPc.todo, Exec.todo]; omega)
  · rename_i e hm
    obtain ⟨⟨st1, e1⟩, h1, hs⟩ := bind_ok hs
    obtain ⟨g1, g2, g3, g4, g5, g6, -, -, g7, -⟩ := execStep_slots h1
    have ht := execStep_todo h1 (st.workers.length + 2)
    dsimp only at hs
    split at hs
    · cases hs
      refine go g1 (by show st1.work.readSem = _; rw [g3]) (by show st1.work.readPos = _; rw [g3]) ?_
      rw [hm]
      simp only [MainPc.todo]
      dsimp only at ht
      omega
    · exact ret g1 g3 (by rw [hm]; simp [MainPc.todo, Exec.todo]) hs
    · exact nomatch hs
  · rename_i hm
    obtain ⟨x, -, hs⟩ := bind_ok hs
    split at hs
    · cases hs; refine go rfl rfl rfl ?_; rw [hm]; simp only [MainPc.todo]; omega
    · split at hs
      · cases hs; refine go rfl rfl rfl ?_; rw [hm]; simp only [MainPc.todo]; omega
      · exact nomatch hs
  · rename_i hm
    obtain ⟨st1, h1, hs⟩ := bind_ok hs
    obtain ⟨x, -, rfl⟩ := update_ok h1
    refine ret ?_ ?_ (by rw [hm]; simp [MainPc.todo]) hs <;> rfl
  · rename_i hm
    obtain ⟨x, -, hs⟩ := bind_ok hs
    split at hs <;> (cases hs; refine go rfl rfl rfl ?_; rw [hm]; simp only [MainPc.todo]; omega)
  · rename_i hm
    obtain ⟨⟨st1, ok⟩, h1, hs⟩ := bind_ok hs
    obtain ⟨-, q, rfl, e1, e2, e3, e4, e5, e6, e7, e8, -⟩ := popSlot_ok h1
    dsimp only at hs
    split at hs <;> (cases hs; refine go rfl e1 e3 ?_; rw [hm]; simp only [MainPc.todo]; omega)
  · rename_i hm
    obtain ⟨x, -, hs⟩ := bind_ok hs
    split at hs
    · cases hs; refine go rfl rfl rfl ?_; rw [hm]; simp only [MainPc.todo]; omega
    · exact nomatch hs
  · rename_i hm
    obtain ⟨st1, h1, hs⟩ := bind_ok hs
    cases hs
    obtain ⟨x, -, rfl⟩ := update_ok h1
    refine go rfl rfl rfl ?_; rw [hm]; simp only [MainPc.todo]; omega
  · rename_i hm
    obtain ⟨x, j, -, -, -, -, he⟩ := freeEnd_ok hs
    rw [he]
    refine go rfl rfl rfl ?_; rw [hm]; simp only [MainPc.todo]; omega

theorem todo_step {st st' : State} {a : Act} (h : QueueInv st) (ha : a.proceeds = true)
    (hs : step st a = .ok (some st')) (hno : Smooth st'.log) : st'.todo < st.todo := by
  unfold step at hs
  rw [h.running] at hs
  rw [if_neg (by simp)] at hs
  cases a with
  | main timeout => exact todo_main h hs hno
  | worker i =>
    dsimp only at hs
    split at hs
    · exact nomatch hs
    · rename_i w hw
      obtain ⟨r, h1, hs⟩ := bind_ok hs
      cases r with
      | none => exact nomatch hs
      | some r => cases hs; exact todo_worker hw h1
  | dispatcher mem =>
    exfalso
    replace hs : dispatcherStep st mem = .ok (some st') := hs
    unfold dispatcherStep at hs
    rw [h.dispatcher] at hs
    dsimp only at hs
    rw [h.dispatch, h.array] at hs
    simp [emptyQueue] at hs
  | _ => exact nomatch ha

theorem steps_trans {P : State → Act → Prop} {st0 st st' : State} {acts more : List Act} (h : Steps P st0 acts st)
    (h' : Steps P st more st') : Steps P st0 (acts ++ more) st' := by
  induction h' with
  | start => rw [List.append_nil]; exact h
  | next _ hc hs ih => rw [← List.append_assoc]; exact .next ih hc hs

/-- As long as no function is called and no work is refused, every step leaves less to do. -/
theorem todo_steps {P : State → Act → Prop} {n : Nat} {acts more : List Act} {st st' : State} (h : Run P n acts st)
    (h' : Steps P st more st') (hm : ∀ a ∈ more, a.proceeds = true) (hno : Smooth st'.log) :
    more.length + st'.todo ≤ st.todo := by
  induction h' with
  | start => simp
  | @next acts' st1 a st2 hr hc hs ih =>
    have hrun := steps_trans h hr
    have hno1 : Smooth st1.log := by
      rcases step_log (handleInv_run hrun).block hs with h | ⟨e, h⟩
      · rw [h] at hno; exact hno
      · rw [h] at hno; exact hno.tail
    have h1 := ih (fun a ha => hm a (List.mem_append_left _ ha)) hno1
    have h2 := todo_step (queueInv_run hrun hno1) (hm a (by simp)) hs hno
    simp only [List.length_append, List.length_cons, List.length_nil]
    omega

end Tm.Async
