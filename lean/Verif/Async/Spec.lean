import Verif.Async.Model

/-!
# What a user of the thread pool expects

The statements are about what a user can observe: the history of a run, in which the newest event comes first.
-/

namespace Tm.Async

/-- No work is executed twice. -/
def Once (log : List Event) : Prop := ∀ j, log.count (.started j) ≤ 1

/-- Whenever a wait for a work has returned successfully the procedure of this work had returned before. -/
def WaitsHold (log : List Event) : Prop :=
  ∀ newer j older, log = newer ++ .waited j :: older → .finished j ∈ older

/-- A work that was freed had finished if it was ever started, and is not started afterwards. -/
def FreesHold (log : List Event) : Prop :=
  ∀ newer i j older, log = newer ++ .freed i j :: older →
    (.started j ∈ older → .finished j ∈ older) ∧ .started j ∉ newer

/-- The handle of index `i` was returned for the work `j` and was not freed since. -/
def Current (log : List Event) (i j : Nat) : Prop :=
  ∃ newer older, log = newer ++ .pushed i j :: older ∧ ∀ k, .freed i k ∉ newer

/-- The handle of index `i` is in use. -/
def Live (log : List Event) (i : Nat) : Prop := ∃ j, Current log i j

/-- No handle is given out that is in use already. -/
def HandlesFresh (log : List Event) : Prop :=
  ∀ newer i j older, log = newer ++ .pushed i j :: older → ¬ Live older i

/-- How many works were pushed. -/
def pushes : List Event → Nat
  | [] => 0
  | .pushed _ _ :: log => pushes log + 1
  | _ :: log => pushes log

/-- The value that the procedure of a work has reported last, zero if it has not reported any. -/
def lastReport (j : Nat) : List Event → Int
  | [] => 0
  | .reported k v :: older => if k = j then v else lastReport j older
  | _ :: older => lastReport j older

/-- The progress that is read is what the procedure of this work has reported last. -/
def ProgressHolds (log : List Event) : Prop :=
  ∀ newer j v older, log = newer ++ .progress j v :: older → v = lastReport j older

/-- The procedure of a work gets to know that it was cancelled if and only if it was. -/
def CancelHolds (log : List Event) : Prop :=
  ∀ newer j b older, log = newer ++ .asked j b :: older → (b = true ↔ .cancelled j ∈ older)

/-- A sequence of steps from one state to another. Each of its steps satisfies `P`. -/
inductive Steps (P : State → Act → Prop) (st0 : State) : List Act → State → Prop where
  | start : Steps P st0 [] st0
  | next {acts st a st'} : Steps P st0 acts st → P st a → step st a = .ok (some st') → Steps P st0 (acts ++ [a]) st'

/-- A run of the pool with `n` worker threads that ends in the given state. Each of its steps satisfies `P`. -/
abbrev Run (P : State → Act → Prop) (n : Nat) : List Act → State → Prop := Steps P (init n)

/-- Every step is allowed. -/
def Any : State → Act → Prop := fun _ _ => True

/-- No wait runs out of time, and no work is freed while a worker thread, having executed it, has still to signal its
event. -/
def Calm : State → Act → Prop := fun st a =>
  a ≠ .main true ∧ ∀ s taken, st.main = .freeEnd s taken → a = .main false → .exec (.set s) ∉ st.workers

/-- A calm step, and if the main thread waits for a work without a limit of time then this work was handed to the worker
threads, and if it frees a work that was handed to the worker threads then this work was started. -/
def Careful : State → Act → Prop := fun st a =>
  Calm st a ∧ (∀ i, a = .call (.wait i) → ∀ j, Current st.log i j → .dispatched j ∈ st.log) ∧
    ∀ i, a = .call (.free i) → ∀ j, Current st.log i j → .dispatched j ∈ st.log → .started j ∈ st.log

/-- A thread goes on inside of the library. -/
def Act.proceeds : Act → Bool
  | .main _ => true
  | .worker _ => true
  | .dispatcher _ => true
  | _ => false

/-- No thread can go on unless the main thread, being outside of the library, calls a function. -/
def Stuck (st : State) : Prop := ∀ a, a.proceeds = true → step st a = .ok none

/-- A call which can hand work to the worker threads. -/
def Act.dispatches : Act → Bool
  | .call (.push _ _) => true
  | .call (.dispatch _) => true
  | _ => false

end Tm.Async
